import Verif.Props.WeightTuning

/-! Property theorem C134: matching a scan in parts. -/

namespace Ndt

open Real Matching Spec

/-- the same problem with another scan -/
def Spec.withScan {n d : Nat} (F : Functor n d) (l : List (Fin d → ℝ)) : Functor n d := { F with points := l }

/-- `f` is the mean of `f₁` and `f₂`, weighted with the number of points of their scans -/
def Spec.MeanOf {X : Type} (n₁ n₂ : Nat) (f₁ f₂ f : X → ℝ) : Prop := ∀ x, f x = (n₁ * f₁ x + n₂ * f₂ x) / (n₁ + n₂)

/-- what is best for both parts is best for the whole, and the whole is never better than both parts at their best poses -/
theorem minimal_of_parts {X : Type} {n₁ n₂ : Nat} {f₁ f₂ f : X → ℝ} (h : MeanOf n₁ n₂ f₁ f₂ f) {x : X} (h₁ : Minimal f₁ x) (h₂ : Minimal f₂ x) : Minimal f x := fun y => by
  rw [h x, h y]
  refine div_le_div_of_nonneg_right (add_le_add ?_ ?_) (by positivity)
  · exact mul_le_mul_of_nonneg_left (h₁ y) (Nat.cast_nonneg _)
  · exact mul_le_mul_of_nonneg_left (h₂ y) (Nat.cast_nonneg _)

theorem weighted_parts {n d : Nat} (F : Functor n d) (l₁ l₂ : List (Fin d → ℝ)) (h₁ : l₁ ≠ []) (h₂ : l₂ ≠ []) (cost : Fl ℝ → ℝ) (x : Fin n → ℝ) (t r : ℝ) :
    (withScan F (l₁ ++ l₂)).weighted ((withScan F (l₁ ++ l₂)).sumCost cost x) t r =
      (l₁.length * (withScan F l₁).weighted ((withScan F l₁).sumCost cost x) t r + l₂.length * (withScan F l₂).weighted ((withScan F l₂).sumCost cost x) t r) / (l₁.length + l₂.length) := by
  have a : (0 : ℝ) < (l₁.length : ℝ) := Nat.cast_pos.2 (List.length_pos_iff.2 h₁)
  have b : (0 : ℝ) < (l₂.length : ℝ) := Nat.cast_pos.2 (List.length_pos_iff.2 h₂)
  unfold Functor.weighted Functor.sumCost withScan
  simp only [foldl_add_eq, zero_add, List.map_append, List.sum_append, List.length_append, Nat.cast_add]
  field_simp
  ring

/-- **C134** (nlopt on NDT maps and 3D occupancy maps). The cost of a scan is the mean of the costs of its parts, weighted with their numbers of points. So a pose that is best for both parts is best for the scan. -/
theorem C134_nlopt :
    (∀ (F : Functor 3 2) (l₁ l₂ : List (Fin 2 → ℝ)), l₁ ≠ [] → l₂ ≠ [] → MeanOf l₁.length l₂.length (withScan F l₁).nlopt2 (withScan F l₂).nlopt2 (withScan F (l₁ ++ l₂)).nlopt2 ∧
      ∀ x, Minimal (withScan F l₁).nlopt2 x → Minimal (withScan F l₂).nlopt2 x → Minimal (withScan F (l₁ ++ l₂)).nlopt2 x) ∧
    (∀ (F : Functor 6 3) (l₁ l₂ : List (Fin 3 → ℝ)), l₁ ≠ [] → l₂ ≠ [] →
      (MeanOf l₁.length l₂.length (withScan F l₁).nloptRPY (withScan F l₂).nloptRPY (withScan F (l₁ ++ l₂)).nloptRPY ∧
        ∀ x, Minimal (withScan F l₁).nloptRPY x → Minimal (withScan F l₂).nloptRPY x → Minimal (withScan F (l₁ ++ l₂)).nloptRPY x) ∧
      (MeanOf l₁.length l₂.length (withScan F l₁).nloptOccRPY (withScan F l₂).nloptOccRPY (withScan F (l₁ ++ l₂)).nloptOccRPY ∧
        ∀ x, Minimal (withScan F l₁).nloptOccRPY x → Minimal (withScan F l₂).nloptOccRPY x → Minimal (withScan F (l₁ ++ l₂)).nloptOccRPY x)) ∧
    (∀ (roll pitch yaw : Quat → ℝ) (F : Functor 7 3) (l₁ l₂ : List (Fin 3 → ℝ)), l₁ ≠ [] → l₂ ≠ [] →
      (MeanOf l₁.length l₂.length ((withScan F l₁).nloptQuat roll pitch yaw) ((withScan F l₂).nloptQuat roll pitch yaw) ((withScan F (l₁ ++ l₂)).nloptQuat roll pitch yaw) ∧
        ∀ x, Minimal ((withScan F l₁).nloptQuat roll pitch yaw) x → Minimal ((withScan F l₂).nloptQuat roll pitch yaw) x → Minimal ((withScan F (l₁ ++ l₂)).nloptQuat roll pitch yaw) x) ∧
      (MeanOf l₁.length l₂.length ((withScan F l₁).nloptOccQuat roll pitch yaw) ((withScan F l₂).nloptOccQuat roll pitch yaw) ((withScan F (l₁ ++ l₂)).nloptOccQuat roll pitch yaw) ∧
        ∀ x, Minimal ((withScan F l₁).nloptOccQuat roll pitch yaw) x → Minimal ((withScan F l₂).nloptOccQuat roll pitch yaw) x → Minimal ((withScan F (l₁ ++ l₂)).nloptOccQuat roll pitch yaw) x)) := by
  have key : ∀ {X : Type} {n₁ n₂ : Nat} {f₁ f₂ f : X → ℝ}, MeanOf n₁ n₂ f₁ f₂ f → MeanOf n₁ n₂ f₁ f₂ f ∧ ∀ x, Minimal f₁ x → Minimal f₂ x → Minimal f x := fun h => ⟨h, fun _ => minimal_of_parts h⟩
  exact ⟨fun F l₁ l₂ h₁ h₂ => key fun x => weighted_parts F l₁ l₂ h₁ h₂ _ x _ _,
    fun F l₁ l₂ h₁ h₂ => ⟨key fun x => weighted_parts F l₁ l₂ h₁ h₂ _ x _ _, key fun x => weighted_parts F l₁ l₂ h₁ h₂ _ x _ _⟩,
    fun _ _ _ F l₁ l₂ h₁ h₂ => ⟨key fun x => weighted_parts F l₁ l₂ h₁ h₂ _ x _ _, key fun x => weighted_parts F l₁ l₂ h₁ h₂ _ x _ _⟩⟩

theorem mean_append {l₁ l₂ : List ℝ} (h₁ : l₁ ≠ []) (h₂ : l₂ ≠ []) : mean (l₁ ++ l₂) = (l₁.length * mean l₁ + l₂.length * mean l₂) / (l₁.length + l₂.length) := by
  have a : (0 : ℝ) < (l₁.length : ℝ) := Nat.cast_pos.2 (List.length_pos_iff.2 h₁)
  have b : (0 : ℝ) < (l₂.length : ℝ) := Nat.cast_pos.2 (List.length_pos_iff.2 h₂)
  unfold mean
  rw [List.sum_append, List.length_append, Nat.cast_add]
  field_simp

/-- **C134** (scores). The score that nlopt (NDT maps) and alglib report for a scan at a pose is the mean of the scores of its parts. -/
theorem C134_scores :
    (∀ (F : Functor 3 2) (l₁ l₂ : List (Fin 2 → ℝ)), F.mapW ≠ 0 → l₁ ≠ [] → l₂ ≠ [] →
      (let s := fun l x => (withScan F l).nloptScore2 x ((withScan F l).nlopt2 x); MeanOf l₁.length l₂.length (s l₁) (s l₂) (s (l₁ ++ l₂))) ∧
      (let s := fun l x => (withScan F l).alglibScore ((withScan F l).alglib2 x); MeanOf l₁.length l₂.length (s l₁) (s l₂) (s (l₁ ++ l₂)))) ∧
    (∀ (F : Functor 6 3) (l₁ l₂ : List (Fin 3 → ℝ)), F.mapW ≠ 0 → l₁ ≠ [] → l₂ ≠ [] →
      (let s := fun l x => (withScan F l).nloptScoreRPY x ((withScan F l).nloptRPY x); MeanOf l₁.length l₂.length (s l₁) (s l₂) (s (l₁ ++ l₂))) ∧
      (let s := fun l x => (withScan F l).alglibScore ((withScan F l).alglibRPY x); MeanOf l₁.length l₂.length (s l₁) (s l₂) (s (l₁ ++ l₂)))) ∧
    (∀ (roll pitch yaw : Quat → ℝ) (F : Functor 7 3) (l₁ l₂ : List (Fin 3 → ℝ)), F.mapW ≠ 0 → l₁ ≠ [] → l₂ ≠ [] →
      (let s := fun l x => (withScan F l).nloptScoreQuat roll pitch yaw x ((withScan F l).nloptQuat roll pitch yaw x); MeanOf l₁.length l₂.length (s l₁) (s l₂) (s (l₁ ++ l₂))) ∧
      (let s := fun l x => (withScan F l).alglibScore ((withScan F l).alglibQuat x); MeanOf l₁.length l₂.length (s l₁) (s l₂) (s (l₁ ++ l₂)))) := by
  obtain ⟨n1, n2, n3⟩ := C48_nlopt
  obtain ⟨a1, a2, a3⟩ := C48_alglib
  have key : ∀ {n d : Nat} (F : Functor n d) (l₁ l₂ : List (Fin d → ℝ)) (x : Fin n → ℝ), l₁ ≠ [] → l₂ ≠ [] → mean ((l₁ ++ l₂).map fun p => properScore F.tiny (F.sample (F.act x p))) =
      (l₁.length * mean (l₁.map fun p => properScore F.tiny (F.sample (F.act x p))) + l₂.length * mean (l₂.map fun p => properScore F.tiny (F.sample (F.act x p)))) / (l₁.length + l₂.length) := by
    intro n d F l₁ l₂ x h₁ h₂
    rw [List.map_append, mean_append (by simpa using h₁) (by simpa using h₂), List.length_map, List.length_map]
  have hne : ∀ {d : Nat} {l₁ l₂ : List (Fin d → ℝ)}, l₁ ≠ [] → l₁ ++ l₂ ≠ [] := fun h hh => h (List.append_eq_nil_iff.1 hh).1
  refine ⟨fun F l₁ l₂ hw h₁ h₂ => ⟨fun x => ?_, fun x => ?_⟩, fun F l₁ l₂ hw h₁ h₂ => ⟨fun x => ?_, fun x => ?_⟩, fun roll pitch yaw F l₁ l₂ hw h₁ h₂ => ⟨fun x => ?_, fun x => ?_⟩⟩
  · simp only [n1 (withScan F l₁) x hw h₁, n1 (withScan F l₂) x hw h₂, n1 (withScan F (l₁ ++ l₂)) x hw (hne h₁)]; exact key F l₁ l₂ x h₁ h₂
  · simp only [a1 (withScan F l₁) x hw h₁, a1 (withScan F l₂) x hw h₂, a1 (withScan F (l₁ ++ l₂)) x hw (hne h₁)]; exact key F l₁ l₂ x h₁ h₂
  · simp only [n2 (withScan F l₁) x hw h₁, n2 (withScan F l₂) x hw h₂, n2 (withScan F (l₁ ++ l₂)) x hw (hne h₁)]; exact key F l₁ l₂ x h₁ h₂
  · simp only [a2 (withScan F l₁) x hw h₁, a2 (withScan F l₂) x hw h₂, a2 (withScan F (l₁ ++ l₂)) x hw (hne h₁)]; exact key F l₁ l₂ x h₁ h₂
  · simp only [n3 _ _ _ (withScan F l₁) x hw h₁, n3 _ _ _ (withScan F l₂) x hw h₂, n3 _ _ _ (withScan F (l₁ ++ l₂)) x hw (hne h₁)]; exact key F l₁ l₂ x h₁ h₂
  · simp only [a3 (withScan F l₁) x hw h₁, a3 (withScan F l₂) x hw h₂, a3 (withScan F (l₁ ++ l₂)) x hw (hne h₁)]; exact key F l₁ l₂ x h₁ h₂

/-- **C134** (scores of nlopt on 3D occupancy maps). They are not mean scores of points (C48), but the score of a scan is the mean of the scores of its parts all the same. -/
theorem C134_scores_occupancy3 :
    (∀ (F : Functor 6 3) (l₁ l₂ : List (Fin 3 → ℝ)), l₁ ≠ [] → l₂ ≠ [] →
      let s := fun l x => (withScan F l).nloptOccScoreRPY x ((withScan F l).nloptOccRPY x); MeanOf l₁.length l₂.length (s l₁) (s l₂) (s (l₁ ++ l₂))) ∧
    (∀ (roll pitch yaw : Quat → ℝ) (F : Functor 7 3) (l₁ l₂ : List (Fin 3 → ℝ)), l₁ ≠ [] → l₂ ≠ [] →
      let s := fun l x => (withScan F l).nloptOccScoreQuat roll pitch yaw x ((withScan F l).nloptOccQuat roll pitch yaw x); MeanOf l₁.length l₂.length (s l₁) (s l₂) (s (l₁ ++ l₂))) := by
  have key : ∀ {n d : Nat} (F : Functor n d) (l₁ l₂ : List (Fin d → ℝ)) (f₁ f₂ f t r : ℝ), l₁ ≠ [] → l₂ ≠ [] → f = (l₁.length * f₁ + l₂.length * f₂) / (l₁.length + l₂.length) →
      (withScan F (l₁ ++ l₂)).unweighted f t r = (l₁.length * (withScan F l₁).unweighted f₁ t r + l₂.length * (withScan F l₂).unweighted f₂ t r) / (l₁.length + l₂.length) := by
    intro n d F l₁ l₂ f₁ f₂ f t r h₁ h₂ hf
    have a : (0 : ℝ) < (l₁.length : ℝ) := Nat.cast_pos.2 (List.length_pos_iff.2 h₁)
    have b : (0 : ℝ) < (l₂.length : ℝ) := Nat.cast_pos.2 (List.length_pos_iff.2 h₂)
    have hs : (l₁.length : ℝ) + l₂.length ≠ 0 := by positivity
    have hf' : f * (l₁.length + l₂.length) = l₁.length * f₁ + l₂.length * f₂ := by rw [hf, div_mul_cancel₀ _ hs]
    unfold Functor.unweighted withScan
    simp only [div_eq_mul_inv _ F.mapW]
    rw [eq_div_iff hs]
    linear_combination (-F.mapW⁻¹) * hf'
  exact ⟨fun F l₁ l₂ h₁ h₂ x => key F l₁ l₂ _ _ _ _ _ h₁ h₂ (((C134_nlopt.2.1 F l₁ l₂ h₁ h₂).2.1) x),
    fun roll pitch yaw F l₁ l₂ h₁ h₂ x => key F l₁ l₂ _ _ _ _ _ h₁ h₂ (((C134_nlopt.2.2 roll pitch yaw F l₁ l₂ h₁ h₂).2.1) x)⟩

/-- **C134** (ceres). With quaternions the rotation prior is constant on unit quaternions (C75). -/
theorem C134_ceres :
    (∀ (tw rw' mw : ℝ) (prior : Fin 2 → ℝ) (priorR : ℝ) (numeric : Bool) (v : (Fin 2 → ℝ) → ℝ) (ed ej : (Fin 2 → ℝ) → Fl ℝ) (l₁ l₂ : List (Fin 2 → ℝ)), l₁ ≠ [] → l₂ ≠ [] → (∀ q, ed q = .fin (v q) ∧ ej q = .fin (v q)) →
      ∃ f : List (Fin 2 → ℝ) → (Fin 2 → ℝ) × (Fin 1 → ℝ) → ℝ, (∀ l x, (problem2d tw rw' mw prior priorR numeric ⟨l, ed, ej⟩).cost x.1 x.2 = .fin (f l x)) ∧ MeanOf l₁.length l₂.length (f l₁) (f l₂) (f (l₁ ++ l₂)) ∧
        ∀ x, Minimal (f l₁) x → Minimal (f l₂) x → Minimal (f (l₁ ++ l₂)) x) ∧
    (∀ (tw rw' mw : ℝ) (prior priorR : Fin 3 → ℝ) (onlyYaw numeric : Bool) (v : (Fin 3 → ℝ) → ℝ) (ed ej : (Fin 3 → ℝ) → Fl ℝ) (l₁ l₂ : List (Fin 3 → ℝ)), l₁ ≠ [] → l₂ ≠ [] → (∀ q, ed q = .fin (v q) ∧ ej q = .fin (v q)) →
      ∃ f : List (Fin 3 → ℝ) → (Fin 3 → ℝ) × (Fin 3 → ℝ) → ℝ, (∀ l x, (problem3dRPY tw rw' mw prior priorR onlyYaw numeric ⟨l, ed, ej⟩).cost x.1 x.2 = .fin (f l x)) ∧ MeanOf l₁.length l₂.length (f l₁) (f l₂) (f (l₁ ++ l₂)) ∧
        ∀ x, Minimal (f l₁) x → Minimal (f l₂) x → Minimal (f (l₁ ++ l₂)) x) ∧
    (∀ (tw rw' mw : ℝ) (prior : Fin 3 → ℝ) (priorR : Quat) (onlyYaw numeric : Bool) (v : (Fin 3 → ℝ) → ℝ) (ed ej : (Fin 3 → ℝ) → Fl ℝ) (l₁ l₂ : List (Fin 3 → ℝ)), quatNormSq priorR = 1 → l₁ ≠ [] → l₂ ≠ [] →
      (∀ q, ed q = .fin (v q) ∧ ej q = .fin (v q)) →
      ∃ f : List (Fin 3 → ℝ) → (Fin 3 → ℝ) × {q : Quat // quatNormSq q = 1} → ℝ, (∀ l x, (problem3dQuaternion tw rw' mw prior priorR onlyYaw numeric ⟨l, ed, ej⟩).cost x.1 x.2 = .fin (f l x)) ∧
        MeanOf l₁.length l₂.length (f l₁) (f l₂) (f (l₁ ++ l₂)) ∧ ∀ x, Minimal (f l₁) x → Minimal (f l₂) x → Minimal (f (l₁ ++ l₂)) x) := by
  have key : ∀ {X P : Type} (g : X → P → ℝ) (D E : X → ℝ) (m t r : ℝ) (l₁ l₂ : List P), l₁ ≠ [] → l₂ ≠ [] →
      ∀ f : List P → X → ℝ, (∀ l x, f l x = 1 / 2 * (m ^ 2 * mean (l.map fun p => g x p ^ 2) + t ^ 2 * D x + r ^ 2 * E x)) →
      MeanOf l₁.length l₂.length (f l₁) (f l₂) (f (l₁ ++ l₂)) ∧ ∀ x, Minimal (f l₁) x → Minimal (f l₂) x → Minimal (f (l₁ ++ l₂)) x := by
    intro X P g D E m t r l₁ l₂ h₁ h₂ f hf
    have a : (0 : ℝ) < (l₁.length : ℝ) := Nat.cast_pos.2 (List.length_pos_iff.2 h₁)
    have b : (0 : ℝ) < (l₂.length : ℝ) := Nat.cast_pos.2 (List.length_pos_iff.2 h₂)
    have hm : MeanOf l₁.length l₂.length (f l₁) (f l₂) (f (l₁ ++ l₂)) := fun x => by
      rw [hf, hf, hf, List.map_append, mean_append (by simpa using h₁) (by simpa using h₂), List.length_map, List.length_map]
      field_simp
      ring
    exact ⟨hm, fun x => minimal_of_parts hm⟩
  refine ⟨?_, ?_, ?_⟩
  · intro tw rw' mw prior priorR numeric v ed ej l₁ l₂ h₁ h₂ hv
    refine ⟨fun l (x : (Fin 2 → ℝ) × (Fin 1 → ℝ)) => 1 / 2 * (mw ^ 2 * mean (l.map fun p => v (moved2 x.1 (x.2 0) p) ^ 2) + tw ^ 2 * distSq x.1 prior + rw' ^ 2 * angleDifference priorR (x.2 0) ^ 2), fun l x => ?_, key (fun (x : (Fin 2 → ℝ) × (Fin 1 → ℝ)) p => v (moved2 x.1 (x.2 0) p)) (fun x => distSq x.1 prior) (fun x => angleDifference priorR (x.2 0) ^ 2) mw tw rw' l₁ l₂ h₁ h₂ _ fun _ _ => rfl⟩
    obtain ⟨e, a, b, f⟩ := C75_cost_2d tw rw' mw prior priorR numeric ⟨l, ed, ej⟩ x.1 x.2 (fun p => v (moved2 x.1 (x.2 0) p)) fun _ p _ => hv _
    rw [f, sq_eq_of_sameAngle a (C44_angle_difference priorR (x.2 0)).2.1 (b.trans (C44_angle_difference priorR (x.2 0)).1.symm)]
  · intro tw rw' mw prior priorR onlyYaw numeric v ed ej l₁ l₂ h₁ h₂ hv
    refine ⟨fun l (x : (Fin 3 → ℝ) × (Fin 3 → ℝ)) => 1 / 2 * (mw ^ 2 * mean (l.map fun p => v (movedRPY x.1 x.2 p) ^ 2) + tw ^ 2 * distSq x.1 prior + rw' ^ 2 * (∑ i, angleDifference (priorR i) (x.2 i) ^ 2)), fun l x => ?_, key (fun (x : (Fin 3 → ℝ) × (Fin 3 → ℝ)) p => v (movedRPY x.1 x.2 p)) (fun x => distSq x.1 prior) (fun x => ∑ i, angleDifference (priorR i) (x.2 i) ^ 2) mw tw rw' l₁ l₂ h₁ h₂ _ fun _ _ => rfl⟩
    obtain ⟨e, a, f⟩ := C75_cost_rpy tw rw' mw prior priorR onlyYaw numeric ⟨l, ed, ej⟩ x.1 x.2 (fun p => v (movedRPY x.1 x.2 p)) fun _ p _ => hv _
    rw [f, Finset.sum_congr rfl fun i _ => sq_eq_of_sameAngle (a i).1 (C44_angle_difference (priorR i) (x.2 i)).2.1 ((a i).2.trans (C44_angle_difference (priorR i) (x.2 i)).1.symm)]
  · intro tw rw' mw prior priorR onlyYaw numeric v ed ej l₁ l₂ hn h₁ h₂ hv
    refine ⟨fun l (x : (Fin 3 → ℝ) × {q : Quat // quatNormSq q = 1}) => 1 / 2 * (mw ^ 2 * mean (l.map fun p => v (moved3 x.1 x.2 p) ^ 2) + tw ^ 2 * distSq x.1 prior + rw' ^ 2 * 1), fun l x => ?_, key (fun (x : (Fin 3 → ℝ) × {q : Quat // quatNormSq q = 1}) p => v (moved3 x.1 x.2 p)) (fun x => distSq x.1 prior) (fun _ => 1) mw tw rw' l₁ l₂ h₁ h₂ _ fun _ _ => rfl⟩
    rw [C75_cost_quaternion_partial tw rw' mw prior priorR onlyYaw numeric ⟨l, ed, ej⟩ x.1 x.2 (fun p => v (moved3 x.1 x.2 p)) hn x.2.2 fun _ p _ => hv _, mul_one]

/-- the hypothesis on the map is met by every map with values, such as one whose value is the first coordinate; two parts of two and one points -/
example : ∃ f : List (Fin 2 → ℝ) → (Fin 2 → ℝ) × (Fin 1 → ℝ) → ℝ,
    (∀ l x, (problem2d 1 1 1 0 0 false ⟨l, fun q => .fin (q 0), fun q => .fin (q 0)⟩).cost x.1 x.2 = .fin (f l x)) ∧ ∀ x, f [0, ![1, 0], ![0, 1]] x = (2 * f [0, ![1, 0]] x + 1 * f [![0, 1]] x) / (2 + 1) := by
  obtain ⟨f, h, hm, -⟩ := C134_ceres.1 1 1 1 0 0 false (fun q => q 0) (fun q => .fin (q 0)) (fun q => .fin (q 0)) [0, ![1, 0]] [![0, 1]] (by simp) (by simp) fun q => ⟨rfl, rfl⟩
  exact ⟨f, h, fun x => by have := hm x; simpa using this⟩

/-! ### alglib, and nlopt on 2D occupancy maps -/

/-- scores of a map with evidence from x = 1 on, and a problem with that map -/
noncomputable def stepScan (m : ℝ) : Functor 3 2 := { unevenScan with points := [], mapW := m, sample := fun q => if q 0 < 1 then .fin 0 else .fin 1 }

theorem step_point (x : Fin 3 → ℝ) (m : ℝ) : pointCost (stepScan m).tiny ((stepScan m).sample ((stepScan m).act x 0)) = if x 0 < 1 then 1 else 0 := by
  have e : pointCost (1 / 1024) (if x 0 < 1 then .fin 0 else .fin 1) = if x 0 < 1 then 1 else 0 := by
    split <;> norm_num [pointCost, Fl.isNormal, value]
  simp [stepScan, unevenScan, moved2] at e ⊢
  exact e

theorem step_alglib (m : ℝ) (k : Nat) (hk : k ≠ 0) (x : Fin 3 → ℝ) : sumSq ((withScan (stepScan m) (List.replicate k 0)).alglib2 x) = m ^ 2 * (if x 0 < 1 then 1 else 0) / k + x 0 ^ 2 + x 1 ^ 2 + angleDifference (x 2) 0 ^ 2 := by
  have hk' : (k : ℝ) ≠ 0 := Nat.cast_ne_zero.2 hk
  unfold Functor.alglib2 Functor.alglibPoints
  rw [sumSq_append]
  have e1 : sumSq ((withScan (stepScan m) (List.replicate k 0)).points.map fun p => (withScan (stepScan m) (List.replicate k 0)).mapW * pointCost (withScan (stepScan m) (List.replicate k 0)).tiny
      ((withScan (stepScan m) (List.replicate k 0)).sample ((withScan (stepScan m) (List.replicate k 0)).act x p)) / ((withScan (stepScan m) (List.replicate k 0)).points.length : ℝ)) = m ^ 2 * (if x 0 < 1 then 1 else 0) / k := by
    show sumSq ((List.replicate k 0).map fun p => m * pointCost (stepScan m).tiny ((stepScan m).sample ((stepScan m).act x p)) / ((List.replicate k (0 : Fin 2 → ℝ)).length : ℝ)) = _
    rw [List.map_replicate, List.length_replicate, step_point]
    unfold sumSq
    rw [List.map_replicate, List.sum_replicate, nsmul_eq_mul]
    split
    · field_simp
    · simp
  rw [e1]
  simp [sumSq, withScan, stepScan, unevenScan]
  ring

theorem step_occ (m : ℝ) (k : Nat) (hk : k ≠ 0) (x : Fin 3 → ℝ) : (withScan (stepScan m) (List.replicate k 0)).nloptOcc2 x = 1 / 2 * (1 / 2 * m * (if x 0 < 1 then 1 else 0) / k + (x 0 ^ 2 + x 1 ^ 2) + angleDifference (x 2) 0 ^ 2) := by
  have hk' : (k : ℝ) ≠ 0 := Nat.cast_ne_zero.2 hk
  unfold Functor.nloptOcc2
  simp only
  rw [foldl_add_eq, zero_add]
  show 1 / 2 * (((List.replicate k 0).map fun p => 1 / 2 * m * (pointCost (stepScan m).tiny ((stepScan m).sample ((stepScan m).act x p)) / ((List.replicate k (0 : Fin 2 → ℝ)).length : ℝ) *
    (pointCost (stepScan m).tiny ((stepScan m).sample ((stepScan m).act x p)) / ((List.replicate k (0 : Fin 2 → ℝ)).length : ℝ)))).sum + 1 * ((x 0 - 0) * (x 0 - 0) + (x 1 - 0) * (x 1 - 0)) +
    1 * (angleDifference (x 2) 0 * angleDifference (x 2) 0)) = _
  rw [List.map_replicate, List.length_replicate, step_point, List.sum_replicate, nsmul_eq_mul]
  split
  · field_simp
    ring
  · simp
    ring

/-- **C134** is false of alglib, and of nlopt on 2D occupancy maps: both divide the residual of a point by the number of points before squaring. A scan of one point is best matched at distance 1 from the initial guess, where the map has evidence; so the
same holds for both parts of the scan that has this point twice. But for the whole scan the initial guess is better. -/
theorem C134_squares_refuted :
    (∃ (F : Functor 3 2) (l : List (Fin 2 → ℝ)) (x y : Fin 3 → ℝ), l ≠ [] ∧ Minimal (fun z => sumSq ((withScan F l).alglib2 z)) x ∧ sumSq ((withScan F (l ++ l)).alglib2 y) < sumSq ((withScan F (l ++ l)).alglib2 x)) ∧
    ∃ (F : Functor 3 2) (l : List (Fin 2 → ℝ)) (x y : Fin 3 → ℝ), l ≠ [] ∧ Minimal (withScan F l).nloptOcc2 x ∧ (withScan F (l ++ l)).nloptOcc2 y < (withScan F (l ++ l)).nloptOcc2 x := by
  have hz : angleDifference 0 0 = 0 := (angleDif_model 0 0).2 (sameAngle_refl 0)
  have l1 : ([0] : List (Fin 2 → ℝ)) = List.replicate 1 0 := rfl
  have l2 : ([0] ++ [0] : List (Fin 2 → ℝ)) = List.replicate 2 0 := rfl
  refine ⟨⟨stepScan (5 / 4), [0], ![1, 0, 0], 0, by simp, fun z => ?_, ?_⟩, ⟨stepScan 3, [0], ![1, 0, 0], 0, by simp, fun z => ?_, ?_⟩⟩
  · rw [l1]
    simp only [step_alglib _ 1 one_ne_zero]
    have h1 := sq_nonneg (z 1)
    have h2 := sq_nonneg (angleDifference (z 2) 0)
    simp [hz]
    split <;> nlinarith [sq_nonneg (z 0)]
  · rw [l2, step_alglib _ 2 two_ne_zero, step_alglib _ 2 two_ne_zero]
    simp [hz]
    norm_num
  · rw [l1, step_occ _ 1 one_ne_zero, step_occ _ 1 one_ne_zero]
    have h1 := sq_nonneg (z 1)
    have h2 := sq_nonneg (angleDifference (z 2) 0)
    simp [hz]
    split <;> nlinarith [sq_nonneg (z 0)]
  · rw [l2, step_occ _ 2 two_ne_zero, step_occ _ 2 two_ne_zero]
    simp [hz]
    norm_num

theorem minimal_of_squares {X : Type} {n₁ n₂ n : ℝ} {f₁ f₂ f : X → ℝ} (hn : 0 < n) (h : ∀ x, f x * n ^ 2 = n₁ ^ 2 * f₁ x + n₂ ^ 2 * f₂ x) {x : X} (h₁ : Minimal f₁ x) (h₂ : Minimal f₂ x) : Minimal f x := fun y => by
  refine le_of_mul_le_mul_right ?_ (pow_pos hn 2)
  rw [h x, h y]
  exact add_le_add (mul_le_mul_of_nonneg_left (h₁ y) (sq_nonneg _)) (mul_le_mul_of_nonneg_left (h₂ y) (sq_nonneg _))

theorem alglibPoints_parts {n d : Nat} (F : Functor n d) (l₁ l₂ : List (Fin d → ℝ)) (h₁ : l₁ ≠ []) (h₂ : l₂ ≠ []) (x : Fin n → ℝ) :
    sumSq ((withScan F (l₁ ++ l₂)).alglibPoints x) * ((l₁.length : ℝ) + l₂.length) ^ 2 = (l₁.length : ℝ) ^ 2 * sumSq ((withScan F l₁).alglibPoints x) + (l₂.length : ℝ) ^ 2 * sumSq ((withScan F l₂).alglibPoints x) := by
  have a : (0 : ℝ) < (l₁.length : ℝ) := Nat.cast_pos.2 (List.length_pos_iff.2 h₁)
  have b : (0 : ℝ) < (l₂.length : ℝ) := Nat.cast_pos.2 (List.length_pos_iff.2 h₂)
  have key : ∀ (l : List (Fin d → ℝ)) (k : ℝ), 0 < k → sumSq (l.map fun p => F.mapW * pointCost F.tiny (F.sample (F.act x p)) / k) * k ^ 2 = sumSq (l.map fun p => F.mapW * pointCost F.tiny (F.sample (F.act x p))) := by
    intro l k hk
    unfold sumSq
    induction l with
    | nil => simp
    | cons p l ih =>
      simp only [List.map_cons, List.sum_cons, add_mul] at ih ⊢
      rw [ih]
      congr 1
      field_simp
  have e : ∀ l : List (Fin d → ℝ), (withScan F l).alglibPoints x = l.map fun p => F.mapW * pointCost F.tiny (F.sample (F.act x p)) / (l.length : ℝ) := fun l => rfl
  rw [e, e, e, List.length_append, Nat.cast_add, key _ _ (by positivity), mul_comm ((l₁.length : ℝ) ^ 2), mul_comm ((l₂.length : ℝ) ^ 2), key _ _ a, key _ _ b, List.map_append, sumSq_append]

/-- **C134** (alglib, what is left). Without priors a pose that is best for both parts is best for the scan. Missing: problems with priors, of which it is false (`C134_squares_refuted`). -/
theorem C134_alglib_partial :
    (∀ (F : Functor 3 2) (l₁ l₂ : List (Fin 2 → ℝ)) (x : Fin 3 → ℝ), F.transW = 0 → F.rotW = 0 → l₁ ≠ [] → l₂ ≠ [] → Minimal (fun z => sumSq ((withScan F l₁).alglib2 z)) x → Minimal (fun z => sumSq ((withScan F l₂).alglib2 z)) x →
      Minimal (fun z => sumSq ((withScan F (l₁ ++ l₂)).alglib2 z)) x) ∧
    (∀ (F : Functor 6 3) (l₁ l₂ : List (Fin 3 → ℝ)) (x : Fin 6 → ℝ), F.transW = 0 → F.rotW = 0 → l₁ ≠ [] → l₂ ≠ [] → Minimal (fun z => sumSq ((withScan F l₁).alglibRPY z)) x → Minimal (fun z => sumSq ((withScan F l₂).alglibRPY z)) x →
      Minimal (fun z => sumSq ((withScan F (l₁ ++ l₂)).alglibRPY z)) x) ∧
    (∀ (F : Functor 7 3) (l₁ l₂ : List (Fin 3 → ℝ)) (x : Fin 7 → ℝ), F.transW = 0 → F.rotW = 0 → l₁ ≠ [] → l₂ ≠ [] → Minimal (fun z => sumSq ((withScan F l₁).alglibQuat z)) x → Minimal (fun z => sumSq ((withScan F l₂).alglibQuat z)) x →
      Minimal (fun z => sumSq ((withScan F (l₁ ++ l₂)).alglibQuat z)) x) := by
  have e2 : ∀ (F : Functor 3 2) l x, F.transW = 0 → F.rotW = 0 → sumSq ((withScan F l).alglib2 x) = sumSq ((withScan F l).alglibPoints x) := by
    intro F l x ht hr
    unfold Functor.alglib2
    rw [sumSq_append]
    simp [withScan, ht, hr, sumSq]
  have e6 : ∀ (F : Functor 6 3) l x, F.transW = 0 → F.rotW = 0 → sumSq ((withScan F l).alglibRPY x) = sumSq ((withScan F l).alglibPoints x) := by
    intro F l x ht hr
    unfold Functor.alglibRPY
    rw [sumSq_append]
    simp [withScan, ht, hr, sumSq]
  have e7 : ∀ (F : Functor 7 3) l x, F.transW = 0 → F.rotW = 0 → sumSq ((withScan F l).alglibQuat x) = sumSq ((withScan F l).alglibPoints x) := by
    intro F l x ht hr
    unfold Functor.alglibQuat
    rw [sumSq_append]
    simp [withScan, ht, hr, sumSq]
  have pos : ∀ {d : Nat} {l₁ l₂ : List (Fin d → ℝ)}, l₁ ≠ [] → (0 : ℝ) < (l₁.length : ℝ) + l₂.length := fun h => by
    have := Nat.cast_pos (α := ℝ).2 (List.length_pos_iff.2 h)
    positivity
  exact ⟨fun F l₁ l₂ x ht hr h₁ h₂ => minimal_of_squares (pos h₁) fun z => by simp only [e2 F _ z ht hr]; exact alglibPoints_parts F l₁ l₂ h₁ h₂ z,
    fun F l₁ l₂ x ht hr h₁ h₂ => minimal_of_squares (pos h₁) fun z => by simp only [e6 F _ z ht hr]; exact alglibPoints_parts F l₁ l₂ h₁ h₂ z,
    fun F l₁ l₂ x ht hr h₁ h₂ => minimal_of_squares (pos h₁) fun z => by simp only [e7 F _ z ht hr]; exact alglibPoints_parts F l₁ l₂ h₁ h₂ z⟩

/-- without priors, the pose at distance 1 is best for one point and for two, so for three -/
example : let F : Functor 3 2 := { stepScan 3 with transW := 0, rotW := 0 }
    Minimal (fun z => sumSq ((withScan F ([0] ++ [0, 0])).alglib2 z)) ![1, 0, 0] := by
  intro F
  have hp : pointCost F.tiny (F.sample (F.act ![1, 0, 0] 0)) = 0 := (step_point ![1, 0, 0] 3).trans (by simp)
  have hnn : ∀ l : List ℝ, 0 ≤ sumSq l := fun l => List.sum_nonneg fun y hy => by
    obtain ⟨z, -, rfl⟩ := List.mem_map.1 hy
    positivity
  have key : ∀ k : Nat, Minimal (fun z => sumSq ((withScan F (List.replicate k 0)).alglib2 z)) ![1, 0, 0] := by
    intro k z
    have e : sumSq ((withScan F (List.replicate k 0)).alglib2 ![1, 0, 0]) = 0 := by
      unfold Functor.alglib2
      have e1 : (withScan F (List.replicate k 0)).alglibPoints ![1, 0, 0] = List.replicate k 0 := by
        show (List.replicate k (0 : Fin 2 → ℝ)).map (fun p => F.mapW * pointCost F.tiny (F.sample (F.act ![1, 0, 0] p)) / ((List.replicate k (0 : Fin 2 → ℝ)).length : ℝ)) = _
        rw [List.map_replicate, hp]
        simp
      rw [sumSq_append, e1]
      simp [sumSq, withScan, F]
    simp only [e]
    exact hnn _
  exact C134_alglib_partial.1 F [0] [0, 0] _ rfl rfl (by simp) (by simp) (key 1) (key 2)

theorem step_nlopt (m : ℝ) (k : Nat) (hk : k ≠ 0) (x : Fin 3 → ℝ) : (withScan (stepScan m) (List.replicate k 0)).nlopt2 x = m * (if x 0 < 1 then 1 else 0) + √(x 0 ^ 2 + x 1 ^ 2) + |angleDifference (x 2) 0| := by
  have hk' : (k : ℝ) ≠ 0 := Nat.cast_ne_zero.2 hk
  have e : (withScan (stepScan m) (List.replicate k 0)).sumCost (pointCost (stepScan m).tiny) x = k * (if x 0 < 1 then 1 else 0) := by
    unfold Functor.sumCost
    rw [foldl_add_eq, zero_add]
    show ((List.replicate k 0).map fun p => pointCost (stepScan m).tiny ((stepScan m).sample ((stepScan m).act x p))).sum = _
    rw [List.map_replicate, step_point, List.sum_replicate, nsmul_eq_mul]
  show (withScan (stepScan m) (List.replicate k 0)).weighted ((withScan (stepScan m) (List.replicate k 0)).sumCost (pointCost (stepScan m).tiny) x) _ _ = _
  rw [e]
  simp [Functor.weighted, withScan, stepScan, unevenScan, Functor.trans2, Functor.rot2]
  split <;> simp [hk', pow_two, hypot2]

/-- with map weight 3, the pose at distance 1 from the guess is best for a scan of one point and for a scan of two, so for a scan of three -/
example : Minimal (withScan (stepScan 3) ([0] ++ [0, 0])).nlopt2 ![1, 0, 0] := by
  have hz : angleDifference 0 0 = 0 := (angleDif_model 0 0).2 (sameAngle_refl 0)
  have key : ∀ k : Nat, k ≠ 0 → Minimal (withScan (stepScan 3) (List.replicate k 0)).nlopt2 ![1, 0, 0] := by
    intro k hk z
    rw [step_nlopt _ k hk, step_nlopt _ k hk]
    have h2 := abs_nonneg (angleDifference (z 2) 0)
    have h3 := Real.sqrt_nonneg (z 0 ^ 2 + z 1 ^ 2)
    have hr : 3 * (if (![1, 0, 0] : Fin 3 → ℝ) 0 < 1 then (1 : ℝ) else 0) + √((![1, 0, 0] : Fin 3 → ℝ) 0 ^ 2 + (![1, 0, 0] : Fin 3 → ℝ) 1 ^ 2) + |angleDifference ((![1, 0, 0] : Fin 3 → ℝ) 2) 0| = 1 := by simp [hz]
    rw [hr]
    split
    · linarith
    · rename_i h
      have : 1 ≤ √(z 0 ^ 2 + z 1 ^ 2) := Real.le_sqrt_of_sq_le (by nlinarith [sq_nonneg (z 1)])
      linarith
  exact (C134_nlopt.1 (stepScan 3) [0] [0, 0] (by simp) (by simp)).2 _ (key 1 one_ne_zero) (key 2 two_ne_zero)

end Ndt
