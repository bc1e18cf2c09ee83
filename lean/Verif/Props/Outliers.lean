import Verif.Props.ScanDensity

/-! Property theorem C128: wrong points of a scan change the cost of matching by their share at most, wherever they lie. -/

namespace Ndt

open Real Matching Spec

/-- Two scans that agree up to a share `ε` of wrong points: in some order, both consist of common points and others, and the others make up at most the share `ε` of either scan. -/
def Spec.AgreeUpTo {α : Type} (ε : ℝ) (l l' : List α) : Prop :=
  ∃ common a b : List α, l.Perm (common ++ a) ∧ l'.Perm (common ++ b) ∧ (a.length : ℝ) ≤ ε * l.length ∧ (b.length : ℝ) ≤ ε * l'.length

theorem sum_unit {α : Type} (l : List α) (f : α → ℝ) (h : ∀ p ∈ l, 0 ≤ f p ∧ f p ≤ 1) : 0 ≤ (l.map f).sum ∧ (l.map f).sum ≤ l.length := by
  induction l with
  | nil => simp
  | cons p l ih =>
    have h0 := h p List.mem_cons_self
    have h1 := ih fun q hq => h q (List.mem_cons_of_mem _ hq)
    rw [List.map_cons, List.sum_cons, List.length_cons, Nat.cast_succ]
    constructor <;> linarith

theorem mean_le_agree {α : Type} {ε : ℝ} {l l' : List α} (hε : 0 ≤ ε) (hl : l ≠ []) (hl' : l' ≠ []) (h : AgreeUpTo ε l l') (f : α → ℝ) (hf : ∀ p, p ∈ l ∨ p ∈ l' → 0 ≤ f p ∧ f p ≤ 1) :
    mean (l.map f) ≤ mean (l'.map f) + ε := by
  obtain ⟨common, a, b, h1, h2, ha, hb⟩ := h
  have hc := sum_unit common f fun p hp => hf p (.inl (h1.mem_iff.2 (List.mem_append_left _ hp)))
  have hA := sum_unit a f fun p hp => hf p (.inl (h1.mem_iff.2 (List.mem_append_right _ hp)))
  have hB := sum_unit b f fun p hp => hf p (.inr (h2.mem_iff.2 (List.mem_append_right _ hp)))
  have n1 : (l.length : ℝ) = common.length + a.length := by rw [h1.length_eq, List.length_append, Nat.cast_add]
  have n2 : (l'.length : ℝ) = common.length + b.length := by rw [h2.length_eq, List.length_append, Nat.cast_add]
  have p1 : (0 : ℝ) < l.length := Nat.cast_pos.2 (List.length_pos_iff.2 hl)
  have p2 : (0 : ℝ) < l'.length := Nat.cast_pos.2 (List.length_pos_iff.2 hl')
  have s1 : (l.map f).sum = (common.map f).sum + (a.map f).sum := by rw [(h1.map f).sum_eq, List.map_append, List.sum_append]
  have s2 : (l'.map f).sum = (common.map f).sum + (b.map f).sum := by rw [(h2.map f).sum_eq, List.map_append, List.sum_append]
  unfold mean
  rw [List.length_map, List.length_map, s1, s2]
  generalize (common.map f).sum = C at *
  generalize (a.map f).sum = A at *
  generalize (b.map f).sum = B at *
  have hC : C / l.length - C / l'.length + a.length / l.length ≤ ε := by
    have ea : (a.length : ℝ) / l.length ≤ ε := (div_le_iff₀ p1).2 ha
    have eb : (b.length : ℝ) / l'.length ≤ ε := (div_le_iff₀ p2).2 hb
    rcases le_total (l.length : ℝ) l'.length with hle | hle
    · have e1 : C / l.length - C / l'.length ≤ (common.length : ℝ) / l.length - common.length / l'.length := by
        have : 0 ≤ ((common.length : ℝ) - C) * (1 / l.length - 1 / l'.length) := mul_nonneg (by linarith [hc.2]) (sub_nonneg.2 (one_div_le_one_div_of_le p1 hle))
        have e : ((common.length : ℝ) - C) * (1 / l.length - 1 / l'.length) = (common.length : ℝ) / l.length - common.length / l'.length - (C / l.length - C / l'.length) := by ring
        linarith
      have e2 : (common.length : ℝ) / l.length + a.length / l.length = 1 := by rw [← add_div, ← n1, div_self p1.ne']
      have e3 : (common.length : ℝ) / l'.length + b.length / l'.length = 1 := by rw [← add_div, ← n2, div_self p2.ne']
      linarith
    · have : C / l.length ≤ C / l'.length := div_le_div_of_nonneg_left hc.1 p2 hle
      linarith
  have e1 : (C + A) / l.length ≤ C / l.length + a.length / l.length := by
    rw [← add_div]; exact div_le_div_of_nonneg_right (by linarith [hA.2]) p1.le
  have e2 : C / l'.length ≤ (C + B) / l'.length := div_le_div_of_nonneg_right (by linarith [hB.1]) p2.le
  linarith

theorem Spec.AgreeUpTo.symm {α : Type} {ε : ℝ} {l l' : List α} (h : AgreeUpTo ε l l') : AgreeUpTo ε l' l := by
  obtain ⟨common, a, b, h1, h2, ha, hb⟩ := h
  exact ⟨common, b, a, h2, h1, hb, ha⟩

theorem mean_agree {α : Type} {ε : ℝ} {l l' : List α} (hε : 0 ≤ ε) (hl : l ≠ []) (hl' : l' ≠ []) (h : AgreeUpTo ε l l') (f : α → ℝ) (hf : ∀ p, p ∈ l ∨ p ∈ l' → 0 ≤ f p ∧ f p ≤ 1) :
    |mean (l.map f) - mean (l'.map f)| ≤ ε := by
  rw [abs_le]
  have h1 := mean_le_agree hε hl hl' h f hf
  have h2 := mean_le_agree hε hl' hl h.symm f fun p hp => hf p hp.symm
  constructor <;> linarith

/-- **C128** (ceres). For scans that agree up to a share `ε` of wrong points and map values between 0 and 1, the costs at every pose differ by at most `ε` times half of the squared map weight: in 2D, with Euler angles, and with quaternions of norm 1. -/
theorem C128_ceres :
    (∀ (tw rw' mw : ℝ) (prior : Fin 2 → ℝ) (priorR : ℝ) (numeric : Bool) (S : ScanTerm 2) (points : List (Fin 2 → ℝ)) (t : Fin 2 → ℝ) (r : Fin 1 → ℝ) (v : (Fin 2 → ℝ) → ℝ) (ε : ℝ), 0 ≤ ε → S.points ≠ [] → points ≠ [] →
      AgreeUpTo ε S.points points → (∀ p, p ∈ S.points ∨ p ∈ points → 0 ≤ v p ∧ v p ≤ 1 ∧ S.evaluateDouble (moved2 t (r 0) p) = .fin (v p) ∧ S.evaluateJet (moved2 t (r 0) p) = .fin (v p)) →
      ∃ c c', (problem2d tw rw' mw prior priorR numeric S).cost t r = .fin c ∧ (problem2d tw rw' mw prior priorR numeric { S with points := points }).cost t r = .fin c' ∧ |c - c'| ≤ mw ^ 2 / 2 * ε) ∧
    (∀ (tw rw' mw : ℝ) (prior priorR : Fin 3 → ℝ) (onlyYaw numeric : Bool) (S : ScanTerm 3) (points : List (Fin 3 → ℝ)) (t r : Fin 3 → ℝ) (v : (Fin 3 → ℝ) → ℝ) (ε : ℝ), 0 ≤ ε → S.points ≠ [] → points ≠ [] →
      AgreeUpTo ε S.points points → (∀ p, p ∈ S.points ∨ p ∈ points → 0 ≤ v p ∧ v p ≤ 1 ∧ S.evaluateDouble (movedRPY t r p) = .fin (v p) ∧ S.evaluateJet (movedRPY t r p) = .fin (v p)) →
      ∃ c c', (problem3dRPY tw rw' mw prior priorR onlyYaw numeric S).cost t r = .fin c ∧ (problem3dRPY tw rw' mw prior priorR onlyYaw numeric { S with points := points }).cost t r = .fin c' ∧ |c - c'| ≤ mw ^ 2 / 2 * ε) ∧
    (∀ (tw rw' mw : ℝ) (prior : Fin 3 → ℝ) (priorR : Quat) (onlyYaw numeric : Bool) (S : ScanTerm 3) (points : List (Fin 3 → ℝ)) (t : Fin 3 → ℝ) (q : Quat) (v : (Fin 3 → ℝ) → ℝ) (ε : ℝ), 0 ≤ ε → S.points ≠ [] → points ≠ [] →
      AgreeUpTo ε S.points points → quatNormSq priorR = 1 → quatNormSq q = 1 →
      (∀ p, p ∈ S.points ∨ p ∈ points → 0 ≤ v p ∧ v p ≤ 1 ∧ S.evaluateDouble (moved3 t q p) = .fin (v p) ∧ S.evaluateJet (moved3 t q p) = .fin (v p)) →
      ∃ c c', (problem3dQuaternion tw rw' mw prior priorR onlyYaw numeric S).cost t q = .fin c ∧ (problem3dQuaternion tw rw' mw prior priorR onlyYaw numeric { S with points := points }).cost t q = .fin c' ∧ |c - c'| ≤ mw ^ 2 / 2 * ε) := by
  have key : ∀ {α : Type} {ε : ℝ} {l l' : List α}, 0 ≤ ε → l ≠ [] → l' ≠ [] → AgreeUpTo ε l l' → ∀ v : α → ℝ, (∀ p, p ∈ l ∨ p ∈ l' → 0 ≤ v p ∧ v p ≤ 1) →
      ∀ mw : ℝ, mw ^ 2 / 2 * |mean (l.map fun p => v p ^ 2) - mean (l'.map fun p => v p ^ 2)| ≤ mw ^ 2 / 2 * ε := by
    intro α ε l l' hε hl hl' h v hv mw
    exact mul_le_mul_of_nonneg_left (mean_agree hε hl hl' h _ fun p hp => ⟨sq_nonneg _, pow_le_one₀ (hv p hp).1 (hv p hp).2⟩) (by positivity)
  have split : ∀ m m' mw q : ℝ, |1 / 2 * (mw ^ 2 * m + q) - 1 / 2 * (mw ^ 2 * m' + q)| = mw ^ 2 / 2 * |m - m'| := by
    intro m m' mw q
    rw [show 1 / 2 * (mw ^ 2 * m + q) - 1 / 2 * (mw ^ 2 * m' + q) = mw ^ 2 / 2 * (m - m') by ring, abs_mul, abs_of_nonneg (by positivity)]
  refine ⟨?_, ?_, ?_⟩
  · intro tw rw' mw prior priorR numeric S points t r v ε hε hl hl' h hv
    obtain ⟨e, h1, h2, h3⟩ := C75_cost_2d tw rw' mw prior priorR numeric S t r v fun _ p hp => (hv p (.inl hp)).2.2
    obtain ⟨e', h1', h2', h3'⟩ := C75_cost_2d tw rw' mw prior priorR numeric { S with points := points } t r v fun _ p hp => (hv p (.inr hp)).2.2
    refine ⟨_, _, h3, h3', ?_⟩
    rw [sq_eq_of_sameAngle h1' h1 (h2'.trans h2.symm), add_assoc, add_assoc, split]
    exact key hε hl hl' h v (fun p hp => ⟨(hv p hp).1, (hv p hp).2.1⟩) mw
  · intro tw rw' mw prior priorR onlyYaw numeric S points t r v ε hε hl hl' h hv
    obtain ⟨e, h1, h3⟩ := C75_cost_rpy tw rw' mw prior priorR onlyYaw numeric S t r v fun _ p hp => (hv p (.inl hp)).2.2
    obtain ⟨e', h1', h3'⟩ := C75_cost_rpy tw rw' mw prior priorR onlyYaw numeric { S with points := points } t r v fun _ p hp => (hv p (.inr hp)).2.2
    refine ⟨_, _, h3, h3', ?_⟩
    rw [Finset.sum_congr rfl fun i _ => sq_eq_of_sameAngle (h1' i).1 (h1 i).1 ((h1' i).2.trans (h1 i).2.symm), add_assoc, add_assoc, split]
    exact key hε hl hl' h v (fun p hp => ⟨(hv p hp).1, (hv p hp).2.1⟩) mw
  · intro tw rw' mw prior priorR onlyYaw numeric S points t q v ε hε hl hl' h hp hq hv
    refine ⟨_, _, C75_cost_quaternion_partial tw rw' mw prior priorR onlyYaw numeric S t q v hp hq fun _ p hp => (hv p (.inl hp)).2.2,
      C75_cost_quaternion_partial tw rw' mw prior priorR onlyYaw numeric { S with points := points } t q v hp hq fun _ p hp => (hv p (.inr hp)).2.2, ?_⟩
    rw [add_assoc, add_assoc, split]
    exact key hε hl hl' h v (fun p hp => ⟨(hv p hp).1, (hv p hp).2.1⟩) mw

theorem weighted_agree {n d : Nat} (F : Functor n d) (points : List (Fin d → ℝ)) (ε : ℝ) (hε : 0 ≤ ε) (hp : F.points ≠ []) (hp' : points ≠ []) (h : AgreeUpTo ε F.points points) (hm : 0 ≤ F.mapW) (cost : Fl ℝ → ℝ)
    (hu : ∀ q, 0 ≤ cost (F.sample q) ∧ cost (F.sample q) ≤ 1) (x : Fin n → ℝ) (t r : ℝ) :
    |F.weighted (F.sumCost cost x) t r - ({ F with points := points } : Functor n d).weighted (({ F with points := points } : Functor n d).sumCost cost x) t r| ≤ F.mapW * ε := by
  have := mean_agree hε hp hp' h (fun p => cost (F.sample (F.act x p))) fun p _ => hu _
  unfold mean at this
  rw [List.length_map, List.length_map] at this
  unfold Functor.weighted Functor.sumCost
  rw [foldl_add_eq, foldl_add_eq, zero_add, zero_add]
  rw [show ∀ a b c d e f : ℝ, a * b / c + e + f - (a * d / (points.length : ℝ) + e + f) = a * (b / c - d / (points.length : ℝ)) by intros; ring, abs_mul, abs_of_nonneg hm]
  exact mul_le_mul_of_nonneg_left this hm

/-- **C128** (nlopt). For scans that agree up to a share `ε` of wrong points and scores between 0 and 1, the costs at every pose differ by at most `ε` times the map weight: on 2D NDT maps, and on 3D NDT and occupancy maps with Euler angles and with
quaternions. -/
theorem C128_nlopt (ε : ℝ) (hε : 0 ≤ ε) :
    (∀ (F : Functor 3 2) (points : List (Fin 2 → ℝ)) (x : Fin 3 → ℝ), AgreeUpTo ε F.points points → F.points ≠ [] → points ≠ [] → UnitScores F → 0 ≤ F.mapW →
      |F.nlopt2 x - ({ F with points := points } : Functor 3 2).nlopt2 x| ≤ F.mapW * ε) ∧
    (∀ (F : Functor 6 3) (points : List (Fin 3 → ℝ)) (x : Fin 6 → ℝ), AgreeUpTo ε F.points points → F.points ≠ [] → points ≠ [] → UnitScores F → 0 ≤ F.mapW →
      |F.nloptRPY x - ({ F with points := points } : Functor 6 3).nloptRPY x| ≤ F.mapW * ε ∧ |F.nloptOccRPY x - ({ F with points := points } : Functor 6 3).nloptOccRPY x| ≤ F.mapW * ε) ∧
    (∀ (roll pitch yaw : Quat → ℝ) (F : Functor 7 3) (points : List (Fin 3 → ℝ)) (x : Fin 7 → ℝ), AgreeUpTo ε F.points points → F.points ≠ [] → points ≠ [] → UnitScores F → 0 ≤ F.mapW →
      |F.nloptQuat roll pitch yaw x - ({ F with points := points } : Functor 7 3).nloptQuat roll pitch yaw x| ≤ F.mapW * ε ∧
      |F.nloptOccQuat roll pitch yaw x - ({ F with points := points } : Functor 7 3).nloptOccQuat roll pitch yaw x| ≤ F.mapW * ε) := by
  refine ⟨fun F points x h hp hp' hu hm => ?_, fun F points x h hp hp' hu hm => ⟨?_, ?_⟩, fun roll pitch yaw F points x h hp hp' hu hm => ⟨?_, ?_⟩⟩
  · exact weighted_agree F points ε hε hp hp' h hm _ (fun q => (pointCost_unit (hu q)).1) x _ _
  · exact weighted_agree F points ε hε hp hp' h hm _ (fun q => (pointCost_unit (hu q)).1) x _ _
  · exact weighted_agree F points ε hε hp hp' h hm _ (fun q => (pointCost_unit (hu q)).2) x _ _
  · exact weighted_agree F points ε hε hp hp' h hm _ (fun q => (pointCost_unit (hu q)).1) x _ _
  · exact weighted_agree F points ε hε hp hp' h hm _ (fun q => (pointCost_unit (hu q)).2) x _ _

/-- **C128** (results of nlopt). Let `x` be a pose that, with the scan that has wrong points, is not worse than `y`. With the other scan, `x` is worse than `y` by at most twice the share of wrong points times the map weight. -/
theorem C128_result (ε : ℝ) (hε : 0 ≤ ε) :
    (∀ (F : Functor 3 2) (points : List (Fin 2 → ℝ)) (x y : Fin 3 → ℝ), AgreeUpTo ε F.points points → F.points ≠ [] → points ≠ [] → UnitScores F → 0 ≤ F.mapW →
      ({ F with points := points } : Functor 3 2).nlopt2 x ≤ ({ F with points := points } : Functor 3 2).nlopt2 y → F.nlopt2 x ≤ F.nlopt2 y + 2 * ε * F.mapW) ∧
    (∀ (F : Functor 6 3) (points : List (Fin 3 → ℝ)) (x y : Fin 6 → ℝ), AgreeUpTo ε F.points points → F.points ≠ [] → points ≠ [] → UnitScores F → 0 ≤ F.mapW →
      (({ F with points := points } : Functor 6 3).nloptRPY x ≤ ({ F with points := points } : Functor 6 3).nloptRPY y → F.nloptRPY x ≤ F.nloptRPY y + 2 * ε * F.mapW) ∧
      (({ F with points := points } : Functor 6 3).nloptOccRPY x ≤ ({ F with points := points } : Functor 6 3).nloptOccRPY y → F.nloptOccRPY x ≤ F.nloptOccRPY y + 2 * ε * F.mapW)) := by
  have key : ∀ {a b a' b' m : ℝ}, |a - a'| ≤ m * ε → |b - b'| ≤ m * ε → a' ≤ b' → a ≤ b + 2 * ε * m := by
    intro a b a' b' m h1 h2 h
    have := abs_le.1 h1
    have := abs_le.1 h2
    linarith
  obtain ⟨k1, k2, _⟩ := C128_nlopt ε hε
  exact ⟨fun F points x y h hp hp' hu hm => key (k1 F points x h hp hp' hu hm) (k1 F points y h hp hp' hu hm),
    fun F points x y h hp hp' hu hm => ⟨key (k2 F points x h hp hp' hu hm).1 (k2 F points y h hp hp' hu hm).1, key (k2 F points x h hp hp' hu hm).2 (k2 F points y h hp hp' hu hm).2⟩⟩

/-- **C128** (results of nlopt with quaternions and of ceres). The same with quaternions, and with half of the squared map weight in place of the map weight for ceres (2D, Euler angles, quaternions of norm 1), whose costs `c` are the numbers that the problems return. -/
theorem C128_result_ceres (ε : ℝ) (hε : 0 ≤ ε) :
    (∀ (roll pitch yaw : Quat → ℝ) (F : Functor 7 3) (points : List (Fin 3 → ℝ)) (x y : Fin 7 → ℝ), AgreeUpTo ε F.points points → F.points ≠ [] → points ≠ [] → UnitScores F → 0 ≤ F.mapW →
      (({ F with points := points } : Functor 7 3).nloptQuat roll pitch yaw x ≤ ({ F with points := points } : Functor 7 3).nloptQuat roll pitch yaw y → F.nloptQuat roll pitch yaw x ≤ F.nloptQuat roll pitch yaw y + 2 * ε * F.mapW) ∧
      (({ F with points := points } : Functor 7 3).nloptOccQuat roll pitch yaw x ≤ ({ F with points := points } : Functor 7 3).nloptOccQuat roll pitch yaw y →
        F.nloptOccQuat roll pitch yaw x ≤ F.nloptOccQuat roll pitch yaw y + 2 * ε * F.mapW)) ∧
    (∀ (tw rw' mw : ℝ) (prior : Fin 2 → ℝ) (priorR : ℝ) (numeric : Bool) (S : ScanTerm 2) (points : List (Fin 2 → ℝ)) (v : (Fin 2 → ℝ) → ℝ), S.points ≠ [] → points ≠ [] → AgreeUpTo ε S.points points →
      (∀ q, 0 ≤ v q ∧ v q ≤ 1 ∧ S.evaluateDouble q = .fin (v q) ∧ S.evaluateJet q = .fin (v q)) → ∀ (t t' : Fin 2 → ℝ) (r r' : Fin 1 → ℝ), ∃ c d c' d' : ℝ,
        (problem2d tw rw' mw prior priorR numeric S).cost t r = .fin c ∧ (problem2d tw rw' mw prior priorR numeric S).cost t' r' = .fin d ∧
        (problem2d tw rw' mw prior priorR numeric { S with points := points }).cost t r = .fin c' ∧ (problem2d tw rw' mw prior priorR numeric { S with points := points }).cost t' r' = .fin d' ∧
        (c' ≤ d' → c ≤ d + ε * mw ^ 2)) ∧
    (∀ (tw rw' mw : ℝ) (prior priorR : Fin 3 → ℝ) (onlyYaw numeric : Bool) (S : ScanTerm 3) (points : List (Fin 3 → ℝ)) (v : (Fin 3 → ℝ) → ℝ), S.points ≠ [] → points ≠ [] → AgreeUpTo ε S.points points →
      (∀ q, 0 ≤ v q ∧ v q ≤ 1 ∧ S.evaluateDouble q = .fin (v q) ∧ S.evaluateJet q = .fin (v q)) → ∀ t t' r r' : Fin 3 → ℝ, ∃ c d c' d' : ℝ,
        (problem3dRPY tw rw' mw prior priorR onlyYaw numeric S).cost t r = .fin c ∧ (problem3dRPY tw rw' mw prior priorR onlyYaw numeric S).cost t' r' = .fin d ∧
        (problem3dRPY tw rw' mw prior priorR onlyYaw numeric { S with points := points }).cost t r = .fin c' ∧ (problem3dRPY tw rw' mw prior priorR onlyYaw numeric { S with points := points }).cost t' r' = .fin d' ∧
        (c' ≤ d' → c ≤ d + ε * mw ^ 2)) ∧
    (∀ (tw rw' mw : ℝ) (prior : Fin 3 → ℝ) (priorR : Quat) (onlyYaw numeric : Bool) (S : ScanTerm 3) (points : List (Fin 3 → ℝ)) (v : (Fin 3 → ℝ) → ℝ), S.points ≠ [] → points ≠ [] → AgreeUpTo ε S.points points → quatNormSq priorR = 1 →
      (∀ q, 0 ≤ v q ∧ v q ≤ 1 ∧ S.evaluateDouble q = .fin (v q) ∧ S.evaluateJet q = .fin (v q)) → ∀ (t t' : Fin 3 → ℝ) (q q' : Quat), quatNormSq q = 1 → quatNormSq q' = 1 → ∃ c d c' d' : ℝ,
        (problem3dQuaternion tw rw' mw prior priorR onlyYaw numeric S).cost t q = .fin c ∧ (problem3dQuaternion tw rw' mw prior priorR onlyYaw numeric S).cost t' q' = .fin d ∧
        (problem3dQuaternion tw rw' mw prior priorR onlyYaw numeric { S with points := points }).cost t q = .fin c' ∧ (problem3dQuaternion tw rw' mw prior priorR onlyYaw numeric { S with points := points }).cost t' q' = .fin d' ∧
        (c' ≤ d' → c ≤ d + ε * mw ^ 2)) := by
  have key : ∀ {a b a' b' m : ℝ}, |a - a'| ≤ m * ε → |b - b'| ≤ m * ε → a' ≤ b' → a ≤ b + 2 * ε * m := by
    intro a b a' b' m h1 h2 h
    have := abs_le.1 h1
    have := abs_le.1 h2
    linarith
  have half : ∀ {a b m : ℝ}, a ≤ b + 2 * ε * (m ^ 2 / 2) → a ≤ b + ε * m ^ 2 := by
    intro a b m h
    linarith
  obtain ⟨_, _, k3⟩ := C128_nlopt ε hε
  obtain ⟨c1, c2, c3⟩ := C128_ceres
  refine ⟨fun roll pitch yaw F points x y h hp hp' hu hm => ⟨key (k3 roll pitch yaw F points x h hp hp' hu hm).1 (k3 roll pitch yaw F points y h hp hp' hu hm).1,
    key (k3 roll pitch yaw F points x h hp hp' hu hm).2 (k3 roll pitch yaw F points y h hp hp' hu hm).2⟩, ?_, ?_, ?_⟩
  · intro tw rw' mw prior priorR numeric S points v hp hp' h hv t t' r r'
    obtain ⟨c, c', h1, h2, h3⟩ := c1 tw rw' mw prior priorR numeric S points t r (fun p => v (moved2 t (r 0) p)) ε hε hp hp' h fun p _ => hv _
    obtain ⟨d, d', h1', h2', h3'⟩ := c1 tw rw' mw prior priorR numeric S points t' r' (fun p => v (moved2 t' (r' 0) p)) ε hε hp hp' h fun p _ => hv _
    exact ⟨c, d, c', d', h1, h1', h2, h2', fun hle => half (key h3 h3' hle)⟩
  · intro tw rw' mw prior priorR onlyYaw numeric S points v hp hp' h hv t t' r r'
    obtain ⟨c, c', h1, h2, h3⟩ := c2 tw rw' mw prior priorR onlyYaw numeric S points t r (fun p => v (movedRPY t r p)) ε hε hp hp' h fun p _ => hv _
    obtain ⟨d, d', h1', h2', h3'⟩ := c2 tw rw' mw prior priorR onlyYaw numeric S points t' r' (fun p => v (movedRPY t' r' p)) ε hε hp hp' h fun p _ => hv _
    exact ⟨c, d, c', d', h1, h1', h2, h2', fun hle => half (key h3 h3' hle)⟩
  · intro tw rw' mw prior priorR onlyYaw numeric S points v hp hp' h hn hv t t' q q' hq hq'
    obtain ⟨c, c', h1, h2, h3⟩ := c3 tw rw' mw prior priorR onlyYaw numeric S points t q (fun p => v (moved3 t q p)) ε hε hp hp' h hn hq fun p _ => hv _
    obtain ⟨d, d', h1', h2', h3'⟩ := c3 tw rw' mw prior priorR onlyYaw numeric S points t' q' (fun p => v (moved3 t' q' p)) ε hε hp hp' h hn hq' fun p _ => hv _
    exact ⟨c, d, c', d', h1, h1', h2, h2', fun hle => half (key h3 h3' hle)⟩

/-- the part of the cost of alglib that belongs to the points is the mean of the squared costs times the squared map weight, divided by the number of points -/
theorem alglibPoints_mean {n d : Nat} (F : Functor n d) (hp : F.points ≠ []) (x : Fin n → ℝ) :
    sumSq (F.alglibPoints x) = F.mapW ^ 2 / (F.points.length : ℝ) * mean (F.points.map fun p => pointCost F.tiny (F.sample (F.act x p)) ^ 2) := by
  have hN : (F.points.length : ℝ) ≠ 0 := Nat.cast_ne_zero.2 fun h => hp (List.length_eq_zero_iff.1 h)
  unfold sumSq Functor.alglibPoints
  rw [List.map_map, show ((· ^ 2) ∘ fun p => F.mapW * pointCost F.tiny (F.sample (F.act x p)) / (F.points.length : ℝ)) =
    fun p => (F.mapW ^ 2 / (F.points.length : ℝ) ^ 2) * pointCost F.tiny (F.sample (F.act x p)) ^ 2 by funext p; simp only [Function.comp]; ring, List.sum_map_mul_left]
  unfold mean
  rw [List.length_map]
  field_simp

/-- **C128** (alglib). For scans with the same number of points that agree up to a share `ε` of wrong points, and scores between 0 and 1, the sums of squares at every pose differ by at most `ε` times the squared map weight, divided by the number of points,
and the reported scores by at most `ε`: in 2D, with Euler angles and with quaternions. -/
theorem C128_alglib (ε : ℝ) (hε : 0 ≤ ε) :
    (∀ (F : Functor 3 2) (points : List (Fin 2 → ℝ)) (x : Fin 3 → ℝ), AgreeUpTo ε F.points points → points.length = F.points.length → F.points ≠ [] → UnitScores F →
      |sumSq (F.alglib2 x) - sumSq (({ F with points := points } : Functor 3 2).alglib2 x)| ≤ F.mapW ^ 2 / F.points.length * ε ∧
      (F.mapW ≠ 0 → |F.alglibScore (F.alglib2 x) - ({ F with points := points } : Functor 3 2).alglibScore (({ F with points := points } : Functor 3 2).alglib2 x)| ≤ ε)) ∧
    (∀ (F : Functor 6 3) (points : List (Fin 3 → ℝ)) (x : Fin 6 → ℝ), AgreeUpTo ε F.points points → points.length = F.points.length → F.points ≠ [] → UnitScores F →
      |sumSq (F.alglibRPY x) - sumSq (({ F with points := points } : Functor 6 3).alglibRPY x)| ≤ F.mapW ^ 2 / F.points.length * ε ∧
      (F.mapW ≠ 0 → |F.alglibScore (F.alglibRPY x) - ({ F with points := points } : Functor 6 3).alglibScore (({ F with points := points } : Functor 6 3).alglibRPY x)| ≤ ε)) ∧
    (∀ (F : Functor 7 3) (points : List (Fin 3 → ℝ)) (x : Fin 7 → ℝ), AgreeUpTo ε F.points points → points.length = F.points.length → F.points ≠ [] → UnitScores F →
      |sumSq (F.alglibQuat x) - sumSq (({ F with points := points } : Functor 7 3).alglibQuat x)| ≤ F.mapW ^ 2 / F.points.length * ε ∧
      (F.mapW ≠ 0 → |F.alglibScore (F.alglibQuat x) - ({ F with points := points } : Functor 7 3).alglibScore (({ F with points := points } : Functor 7 3).alglibQuat x)| ≤ ε)) := by
  have key : ∀ {n d : Nat} (F : Functor n d) (points : List (Fin d → ℝ)) (x : Fin n → ℝ) (rest : List ℝ), AgreeUpTo ε F.points points → points.length = F.points.length → F.points ≠ [] → UnitScores F →
      |sumSq (F.alglibPoints x ++ rest) - sumSq (({ F with points := points } : Functor n d).alglibPoints x ++ rest)| ≤ F.mapW ^ 2 / F.points.length * ε ∧
      (F.mapW ≠ 0 → |F.alglibScore (F.alglibPoints x ++ rest) - ({ F with points := points } : Functor n d).alglibScore (({ F with points := points } : Functor n d).alglibPoints x ++ rest)| ≤ ε) := by
    intro n d F points x rest h hlen hp hu
    have hp' : points ≠ [] := fun e => hp (List.length_eq_zero_iff.1 (by rw [← hlen, e]; rfl))
    have hc : ∀ p, 0 ≤ pointCost F.tiny (F.sample (F.act x p)) ∧ pointCost F.tiny (F.sample (F.act x p)) ≤ 1 := fun p => (pointCost_unit (hu _)).1
    constructor
    · rw [sumSq_append, sumSq_append, add_sub_add_right_eq_sub, alglibPoints_mean F hp x, alglibPoints_mean ({ F with points := points } : Functor n d) hp' x]
      show |F.mapW ^ 2 / (F.points.length : ℝ) * _ - F.mapW ^ 2 / (points.length : ℝ) * _| ≤ _
      rw [hlen, ← mul_sub, abs_mul, abs_of_nonneg (by positivity : 0 ≤ F.mapW ^ 2 / (F.points.length : ℝ))]
      exact mul_le_mul_of_nonneg_left (mean_agree hε hp hp' h _ fun p _ => ⟨sq_nonneg _, pow_le_one₀ (hc p).1 (hc p).2⟩) (by positivity)
    · intro hm
      rw [alglibScore_eq F hm hp, alglibScore_eq ({ F with points := points } : Functor n d) hm hp']
      refine mean_agree hε hp hp' h _ fun p _ => ?_
      have := hc p
      rw [pointCost_eq] at this
      constructor <;> linarith
  exact ⟨fun F points x h hlen hp hu => key F points x _ h hlen hp hu, fun F points x h hlen hp hu => key F points x _ h hlen hp hu, fun F points x h hlen hp hu => key F points x _ h hlen hp hu⟩

/-- **C128** (nlopt on 2D occupancy maps). For scans with the same number of points that agree up to a share `ε` of wrong points, and scores between 0 and 1, the costs at every pose differ by at most `ε` times a quarter of the map weight, divided by the number of
points. -/
theorem C128_occupancy2 (ε : ℝ) (hε : 0 ≤ ε) (F : Functor 3 2) (points : List (Fin 2 → ℝ)) (x : Fin 3 → ℝ) (h : AgreeUpTo ε F.points points) (hlen : points.length = F.points.length) (hp : F.points ≠ []) (hu : UnitScores F) (hm : 0 ≤ F.mapW) :
    |F.nloptOcc2 x - ({ F with points := points } : Functor 3 2).nloptOcc2 x| ≤ F.mapW / (4 * F.points.length) * ε := by
  have hp' : points ≠ [] := fun e => hp (List.length_eq_zero_iff.1 (by rw [← hlen, e]; rfl))
  have hc : ∀ p, 0 ≤ pointCost F.tiny (F.sample (F.act x p)) ∧ pointCost F.tiny (F.sample (F.act x p)) ≤ 1 := fun p => (pointCost_unit (hu _)).1
  have hN : (F.points.length : ℝ) ≠ 0 := Nat.cast_ne_zero.2 fun h => hp (List.length_eq_zero_iff.1 h)
  have e : ∀ l : List (Fin 2 → ℝ), l.length = F.points.length → (l.map fun p => 1 / 2 * F.mapW * (pointCost F.tiny (F.sample (F.act x p)) / (l.length : ℝ) * (pointCost F.tiny (F.sample (F.act x p)) / (l.length : ℝ)))).sum =
      F.mapW / (2 * F.points.length) * mean (l.map fun p => pointCost F.tiny (F.sample (F.act x p)) ^ 2) := by
    intro l hl
    rw [hl, show (fun p => 1 / 2 * F.mapW * (pointCost F.tiny (F.sample (F.act x p)) / (F.points.length : ℝ) * (pointCost F.tiny (F.sample (F.act x p)) / (F.points.length : ℝ)))) =
      fun p => (F.mapW / 2 / (F.points.length : ℝ) ^ 2) * pointCost F.tiny (F.sample (F.act x p)) ^ 2 by funext p; ring, List.sum_map_mul_left]
    unfold mean
    rw [List.length_map, hl]
    field_simp
  unfold Functor.nloptOcc2
  simp only []
  rw [foldl_add_eq, foldl_add_eq, zero_add, zero_add, e F.points rfl, e points hlen]
  have hr : ({ F with points := points } : Functor 3 2).rot2 x = F.rot2 x := rfl
  rw [hr]
  have := mean_agree hε hp hp' h (fun p => pointCost F.tiny (F.sample (F.act x p)) ^ 2) fun p _ => ⟨sq_nonneg _, pow_le_one₀ (hc p).1 (hc p).2⟩
  rw [show ∀ a b c d w : ℝ, 1 / 2 * (w / (2 * F.points.length) * a + c + d) - 1 / 2 * (w / (2 * F.points.length) * b + c + d) = w / (4 * F.points.length) * (a - b) by intros; field_simp; ring, abs_mul,
    abs_of_nonneg (by positivity : 0 ≤ F.mapW / (4 * (F.points.length : ℝ)))]
  exact mul_le_mul_of_nonneg_left this (by positivity)

/-- **C128** (scores of nlopt). The scores that are reported on NDT maps differ by at most `ε`. -/
theorem C128_score (ε : ℝ) (hε : 0 ≤ ε) :
    (∀ (F : Functor 3 2) (points : List (Fin 2 → ℝ)) (x : Fin 3 → ℝ), AgreeUpTo ε F.points points → F.points ≠ [] → points ≠ [] → UnitScores F → F.mapW ≠ 0 →
      |F.nloptScore2 x (F.nlopt2 x) - ({ F with points := points } : Functor 3 2).nloptScore2 x (({ F with points := points } : Functor 3 2).nlopt2 x)| ≤ ε) ∧
    (∀ (F : Functor 6 3) (points : List (Fin 3 → ℝ)) (x : Fin 6 → ℝ), AgreeUpTo ε F.points points → F.points ≠ [] → points ≠ [] → UnitScores F → F.mapW ≠ 0 →
      |F.nloptScoreRPY x (F.nloptRPY x) - ({ F with points := points } : Functor 6 3).nloptScoreRPY x (({ F with points := points } : Functor 6 3).nloptRPY x)| ≤ ε) ∧
    (∀ (roll pitch yaw : Quat → ℝ) (F : Functor 7 3) (points : List (Fin 3 → ℝ)) (x : Fin 7 → ℝ), AgreeUpTo ε F.points points → F.points ≠ [] → points ≠ [] → UnitScores F → F.mapW ≠ 0 →
      |F.nloptScoreQuat roll pitch yaw x (F.nloptQuat roll pitch yaw x) -
        ({ F with points := points } : Functor 7 3).nloptScoreQuat roll pitch yaw x (({ F with points := points } : Functor 7 3).nloptQuat roll pitch yaw x)| ≤ ε) := by
  have key : ∀ {n d : Nat} (F : Functor n d) (points : List (Fin d → ℝ)) (x : Fin n → ℝ), AgreeUpTo ε F.points points → F.points ≠ [] → points ≠ [] → UnitScores F →
      |mean (F.points.map fun p => properScore F.tiny (F.sample (F.act x p))) - mean (points.map fun p => properScore F.tiny (F.sample (F.act x p)))| ≤ ε := by
    intro n d F points x h hp hp' hu
    refine mean_agree hε hp hp' h _ fun p _ => ?_
    have := (pointCost_unit (tiny := F.tiny) (hu (F.act x p))).1
    rw [pointCost_eq] at this
    constructor <;> linarith
  obtain ⟨k1, k2, k3⟩ := C48_nlopt
  refine ⟨fun F points x h hp hp' hu hm => ?_, fun F points x h hp hp' hu hm => ?_, fun roll pitch yaw F points x h hp hp' hu hm => ?_⟩
  · rw [k1 F x hm hp, k1 ({ F with points := points } : Functor 3 2) x hm hp']
    exact key F points x h hp hp' hu
  · rw [k2 F x hm hp, k2 ({ F with points := points } : Functor 6 3) x hm hp']
    exact key F points x h hp hp' hu
  · rw [k3 roll pitch yaw F x hm hp, k3 roll pitch yaw ({ F with points := points } : Functor 7 3) x hm hp']
    exact key F points x h hp hp' hu

/-- a problem of ceres with a scan of four points, one of which is replaced -/
example (numeric : Bool) (p q : Fin 2 → ℝ) (v : (Fin 2 → ℝ) → ℝ) (hv : ∀ p, 0 ≤ v p ∧ v p ≤ 1) (t : Fin 2 → ℝ) (r : Fin 1 → ℝ) :
    ∃ c c', (problem2d 1 1 2 0 0 numeric ⟨[p, p, q, q], fun p => .fin (v p), fun p => .fin (v p)⟩).cost t r = .fin c ∧
      (problem2d 1 1 2 0 0 numeric ⟨[p, p, q, ![1000, 1000]], fun p => .fin (v p), fun p => .fin (v p)⟩).cost t r = .fin c' ∧ |c - c'| ≤ 2 ^ 2 / 2 * (1 / 4) :=
  C128_ceres.1 1 1 2 0 0 numeric ⟨[p, p, q, q], fun p => .fin (v p), fun p => .fin (v p)⟩ [p, p, q, ![1000, 1000]] t r (fun p => v (moved2 t (r 0) p)) (1 / 4) (by norm_num) (by simp) (by simp)
    ⟨[p, p, q], [q], [![1000, 1000]], .refl _, .refl _, by norm_num, by norm_num⟩ fun _ _ => ⟨(hv _).1, (hv _).2, rfl, rfl⟩

/-- the hypotheses can be met, and the bound is attained: a scan of four points that all fit, and the same scan with one point replaced by one that does not -/
example : ∃ (F : Functor 3 2) (points : List (Fin 2 → ℝ)), AgreeUpTo (1 / 4) F.points points ∧ F.points ≠ [] ∧ points ≠ [] ∧ UnitScores F ∧ 0 < F.mapW ∧ F.nlopt2 0 = 0 ∧
    ({ F with points := points } : Functor 3 2).nlopt2 0 = F.mapW * (1 / 4) := by
  have hd : angleDifference 0 0 = 0 := (angleDif_model 0 0).2 (sameAngle_refl 0)
  refine ⟨{ oneStep 1 0 with points := [![1, 0], ![1, 0], ![1, 0], ![1, 0]] }, [![1, 0], ![1, 0], ![1, 0], ![9, 0]], ?_, by simp, by simp, (oneStep_met 1 0).1, by norm_num [oneStep], ?_, ?_⟩
  · exact ⟨[![1, 0], ![1, 0], ![1, 0]], [![1, 0]], [![9, 0]], .refl _, .refl _, by norm_num, by norm_num⟩
  · norm_num [Functor.nlopt2, Functor.weighted, Functor.sumCost, oneStep, pointCost, Fl.isNormal, value, Functor.trans2, hypot2, Functor.rot2, hd]
  · norm_num [Functor.nlopt2, Functor.weighted, Functor.sumCost, oneStep, pointCost, Fl.isNormal, value, Functor.trans2, hypot2, Functor.rot2, hd]

end Ndt
