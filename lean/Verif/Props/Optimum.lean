import Verif.Props.Trust
import Verif.Props.Interpolation
import Verif.Props.PriorRounded
import Verif.Props.Jet
import Mathlib.Topology.Algebra.Monoid
import Mathlib.Topology.Order.Compact
import Mathlib.Topology.MetricSpace.ProperSpace
import Mathlib.Analysis.SpecialFunctions.Trigonometric.Basic

/-!
Property theorem C125: a matching problem has a best pose. Which pose a solver returns is not modelled; the claim is that there is a pose to be found. It is true of the interpolated cost, which is continuous, and false of the sampled cost, which
jumps at the borders of bundles.
-/

namespace Ndt

open Real Matching Spec Filter Topology St

/-- the pose (translation `t`, rotation `r`) has a cost that is a number, and no pose has a lower cost -/
def Spec.BestPose (cost : (Fin 2 → ℝ) → (Fin 1 → ℝ) → Fl ℝ) (t : Fin 2 → ℝ) (r : Fin 1 → ℝ) : Prop :=
  ∃ c, cost t r = .fin c ∧ ∀ t' r', ∃ c', cost t' r' = .fin c' ∧ c ≤ c'

/-- every pose has a cost that is a number, and for every pose there is a better one -/
def Spec.AlwaysBetter (cost : (Fin 2 → ℝ) → (Fin 1 → ℝ) → Fl ℝ) : Prop :=
  ∀ t r, ∃ t' r' c c', cost t r = .fin c ∧ cost t' r' = .fin c' ∧ c' < c

/-- the two exclude each other -/
theorem AlwaysBetter.not_best {cost : (Fin 2 → ℝ) → (Fin 1 → ℝ) → Fl ℝ} (h : AlwaysBetter cost) (t : Fin 2 → ℝ) (r : Fin 1 → ℝ) : ¬ BestPose cost t r := by
  rintro ⟨c, h1, h2⟩
  obtain ⟨t', r', c0, c', k1, k2, k3⟩ := h t r
  obtain ⟨c'', k4, k5⟩ := h2 t' r'
  have e1 := Fl.fin.inj (h1.symm.trans k1)
  have e2 := Fl.fin.inj (k2.symm.trans k4)
  linarith

theorem sq_eq_of_sameAngle {a b : ℝ} (ha : |a| ≤ π) (hb : |b| ≤ π) (h : SameAngle a b) : a ^ 2 = b ^ 2 := by
  rcases hb.lt_or_eq with hb | hb
  · rw [eq_of_sameAngle_lt ha hb h]
  rcases ha.lt_or_eq with ha | ha
  · have h' : SameAngle b a := by
      obtain ⟨k, hk⟩ := h
      exact ⟨-k, by push_cast; linarith⟩
    rw [eq_of_sameAngle_lt hb.le ha h']
  · rw [← sq_abs a, ← sq_abs b, ha, hb]

/-- the cost in closed form, for rotations within half a turn of the prior -/
noncomputable def closedCost (tw rw' mw : ℝ) (prior : Fin 2 → ℝ) (priorR : ℝ) (points : List (Fin 2 → ℝ)) (V : (Fin 2 → ℝ) → ℝ) (x : (Fin 2 → ℝ) × ℝ) : ℝ :=
  1 / 2 * (mw ^ 2 * mean (points.map fun p => V (moved2 x.1 x.2 p) ^ 2) + tw ^ 2 * distSq x.1 prior + rw' ^ 2 * (priorR - x.2) ^ 2)

theorem closedCost_continuous (tw rw' mw : ℝ) (prior : Fin 2 → ℝ) (priorR : ℝ) (points : List (Fin 2 → ℝ)) (V : (Fin 2 → ℝ) → ℝ) (hV : Continuous V) : Continuous (closedCost tw rw' mw prior priorR points V) := by
  have hm : ∀ p, Continuous fun x : (Fin 2 → ℝ) × ℝ => moved2 x.1 x.2 p := by
    intro p
    refine continuous_pi fun i => ?_
    fin_cases i
    · show Continuous fun x : (Fin 2 → ℝ) × ℝ => cos x.2 * p 0 - sin x.2 * p 1 + x.1 0
      fun_prop
    · show Continuous fun x : (Fin 2 → ℝ) × ℝ => sin x.2 * p 0 + cos x.2 * p 1 + x.1 1
      fun_prop
  have h1 : Continuous fun x : (Fin 2 → ℝ) × ℝ => mean (points.map fun p => V (moved2 x.1 x.2 p) ^ 2) := by
    unfold mean
    simp only [List.length_map]
    exact (continuous_list_sum points fun p _ => (hV.comp (hm p)).pow 2).div_const _
  have h2 : Continuous fun x : (Fin 2 → ℝ) × ℝ => distSq x.1 prior := by
    unfold distSq
    fun_prop
  unfold closedCost
  fun_prop

/-- the cost of the problem for every pose -/
theorem cost_closed (tw rw' mw : ℝ) (prior : Fin 2 → ℝ) (priorR : ℝ) (numeric : Bool) (S : ScanTerm 2) (V : (Fin 2 → ℝ) → ℝ) (hV : ∀ q, (if numeric then S.evaluateDouble q else S.evaluateJet q) = .fin (V q)) (t : Fin 2 → ℝ) (r : Fin 1 → ℝ) :
    ∃ a, |priorR - a| ≤ π ∧ SameAngle a (r 0) ∧ (problem2d tw rw' mw prior priorR numeric S).cost t r = .fin (closedCost tw rw' mw prior priorR S.points V (t, a)) := by
  have hP : problem2d tw rw' mw prior priorR numeric S = problem2d tw rw' mw prior priorR numeric ⟨S.points, fun q => .fin (V q), fun q => .fin (V q)⟩ := by
    unfold problem2d scanBlock
    cases numeric
    · have : S.evaluateJet = fun q => .fin (V q) := funext hV
      simp [this]
    · have : S.evaluateDouble = fun q => .fin (V q) := funext hV
      simp [this]
  obtain ⟨e, h1, h2, h3⟩ := C75_cost_2d tw rw' mw prior priorR numeric ⟨S.points, fun q => .fin (V q), fun q => .fin (V q)⟩ t r (fun p => V (moved2 t (r 0) p)) fun _ _ _ => ⟨rfl, rfl⟩
  have ha : SameAngle (priorR - e) (r 0) := by
    obtain ⟨k, hk⟩ := h2
    exact ⟨-k, by push_cast; linarith⟩
  refine ⟨priorR - e, by rwa [sub_sub_cancel], ha, ?_⟩
  rw [hP, h3]
  have hmv : ∀ p, moved2 t (r 0) p = moved2 t (priorR - e) p := by
    intro p
    obtain ⟨hs, hc⟩ := sameAngle_sin ha
    unfold moved2
    rw [hs, hc]
  unfold closedCost
  simp only [hmv, sub_sub_cancel]

theorem closedCost_low (tw rw' mw : ℝ) (prior : Fin 2 → ℝ) (priorR : ℝ) (points : List (Fin 2 → ℝ)) (V : (Fin 2 → ℝ) → ℝ) (x : (Fin 2 → ℝ) × ℝ) :
    1 / 2 * (tw ^ 2 * distSq x.1 prior) ≤ closedCost tw rw' mw prior priorR points V x := by
  have h1 : 0 ≤ mw ^ 2 * mean (points.map fun p => V (moved2 x.1 x.2 p) ^ 2) := mul_nonneg (sq_nonneg _) (mean_sq_nonneg points fun p => V (moved2 x.1 x.2 p))
  have h2 := mul_nonneg (sq_nonneg rw') (sq_nonneg (priorR - x.2))
  unfold closedCost
  linarith

/-- with a translation weight, far away is worse than the prior -/
theorem far_of_weight (tw rw' mw : ℝ) (htw : tw ≠ 0) (prior : Fin 2 → ℝ) (priorR : ℝ) (points : List (Fin 2 → ℝ)) (V : (Fin 2 → ℝ) → ℝ) :
    ∃ R, 0 ≤ R ∧ ∃ t₀ ∈ Metric.closedBall prior R, ∀ t ∉ Metric.closedBall prior R, ∀ a, closedCost tw rw' mw prior priorR points V (t₀, priorR) ≤ closedCost tw rw' mw prior priorR points V (t, a) := by
  set C := closedCost tw rw' mw prior priorR points V with hC
  have hlow : ∀ x, 1 / 2 * (tw ^ 2 * distSq x.1 prior) ≤ C x := closedCost_low tw rw' mw prior priorR points V
  have hd0 : ∀ t, 0 ≤ distSq t prior := fun t => Finset.sum_nonneg fun i _ => sq_nonneg _
  set c0 := C (prior, priorR) with hc0
  have hc0n : 0 ≤ c0 := le_trans (by have := hd0 prior; positivity) (hlow (prior, priorR))
  set R := (1 + 2 * c0) / |tw| with hR
  have htwp : 0 < |tw| := abs_pos.2 htw
  have hRp : 0 ≤ R := by positivity
  refine ⟨R, hRp, prior, Metric.mem_closedBall_self hRp, fun t ht a => ?_⟩
  rw [Metric.mem_closedBall, dist_pi_le_iff hRp, not_forall] at ht
  obtain ⟨i, hi⟩ := ht
  rw [not_le, Real.dist_eq] at hi
  have h1 : (t i - prior i) ^ 2 ≤ distSq t prior := Finset.single_le_sum (f := fun i => (t i - prior i) ^ 2) (fun j _ => sq_nonneg _) (Finset.mem_univ i)
  have h2 : R ^ 2 ≤ (t i - prior i) ^ 2 := by
    rw [← sq_abs (t i - prior i)]
    exact pow_le_pow_left₀ hRp hi.le 2
  have h3 : tw ^ 2 * R ^ 2 = (1 + 2 * c0) ^ 2 := by
    rw [hR, ← sq_abs tw]
    field_simp
  have h4 : tw ^ 2 * R ^ 2 ≤ tw ^ 2 * distSq t prior := mul_le_mul_of_nonneg_left (h2.trans h1) (sq_nonneg _)
  have h5 := hlow (t, a)
  have h6 : tw ^ 2 * distSq (t, a).1 prior = tw ^ 2 * distSq t prior := rfl
  nlinarith

theorem abs_moved2_sub (t : Fin 2 → ℝ) (a : ℝ) (p : Fin 2 → ℝ) (i : Fin 2) : |moved2 t a p i - t i| ≤ |p 0| + |p 1| := by
  have hc : |cos a| ≤ 1 := abs_cos_le_one a
  have hs : |sin a| ≤ 1 := abs_sin_le_one a
  have key : ∀ u v : ℝ, |u| ≤ 1 → |v| ≤ 1 → |u * p 0 + v * p 1| ≤ |p 0| + |p 1| := by
    intro u v hu hv
    refine (abs_add_le _ _).trans ?_
    rw [abs_mul, abs_mul]
    have := mul_le_mul_of_nonneg_right hu (abs_nonneg (p 0))
    have := mul_le_mul_of_nonneg_right hv (abs_nonneg (p 1))
    linarith
  fin_cases i
  · show |cos a * p 0 - sin a * p 1 + t 0 - t 0| ≤ _
    have := key (cos a) (-sin a) hc (by rwa [abs_neg])
    rwa [show cos a * p 0 - sin a * p 1 + t 0 - t 0 = cos a * p 0 + -sin a * p 1 by ring]
  · show |sin a * p 0 + cos a * p 1 + t 1 - t 1| ≤ _
    have := key (sin a) (cos a) hs hc
    rwa [add_sub_cancel_right]

/-- without a translation weight, the cost far away is that of points off the map -/
theorem far_of_const (rw' mw : ℝ) (prior : Fin 2 → ℝ) (priorR : ℝ) (points : List (Fin 2 → ℝ)) (V : (Fin 2 → ℝ) → ℝ) (R₁ : ℝ) (hV : ∀ q i, R₁ < |q i| → V q = 1) :
    ∃ R, 0 ≤ R ∧ ∃ t₀ ∈ Metric.closedBall prior R, ∀ t ∉ Metric.closedBall prior R, ∀ a, closedCost 0 rw' mw prior priorR points V (t₀, priorR) ≤ closedCost 0 rw' mw prior priorR points V (t, a) := by
  obtain ⟨M, hM0, hM⟩ : ∃ M : ℝ, 0 ≤ M ∧ ∀ p ∈ points, |p 0| + |p 1| ≤ M := by
    refine ⟨(points.map fun p => |p 0| + |p 1|).sum, List.sum_nonneg fun x hx => ?_, fun p hp => ?_⟩
    · obtain ⟨p, _, rfl⟩ := List.mem_map.1 hx
      positivity
    · refine List.single_le_sum (fun x hx => ?_) _ (List.mem_map_of_mem hp)
      obtain ⟨p, _, rfl⟩ := List.mem_map.1 hx
      positivity
  set R := |R₁| + |prior 0| + |prior 1| + M with hR
  have hRp : 0 ≤ R := by positivity
  have hfar : ∀ (t : Fin 2 → ℝ) (a : ℝ) (i : Fin 2), R < |t i - prior i| → ∀ p ∈ points, V (moved2 t a p) = 1 := by
    intro t a i hi p hp
    refine hV _ i ?_
    have h1 := abs_moved2_sub t a p i
    have h2 := hM p hp
    have h3 : |prior i| ≤ |prior 0| + |prior 1| := by
      fin_cases i
      · exact le_add_of_nonneg_right (abs_nonneg _)
      · exact le_add_of_nonneg_left (abs_nonneg _)
    have h4 : |t i - prior i| ≤ |moved2 t a p i| + |moved2 t a p i - t i| + |prior i| := by
      have e : t i - prior i = moved2 t a p i - (moved2 t a p i - t i) - prior i := by ring
      rw [e]
      refine (abs_sub _ _).trans (add_le_add (abs_sub _ _) le_rfl)
    have h5 := le_abs_self R₁
    linarith
  have hval : ∀ (t : Fin 2 → ℝ) (a : ℝ) (i : Fin 2), R < |t i - prior i| → closedCost 0 rw' mw prior priorR points V (t, a) = 1 / 2 * (mw ^ 2 * mean (points.map fun _ => (1 : ℝ)) + rw' ^ 2 * (priorR - a) ^ 2) := by
    intro t a i hi
    unfold closedCost
    have : (points.map fun p => V (moved2 (t, a).1 (t, a).2 p) ^ 2) = points.map fun _ => (1 : ℝ) := List.map_congr_left fun p hp => by rw [hfar t a i hi p hp]; norm_num
    rw [this]
    ring
  refine ⟨R + 1, by linarith, fun i => prior i + (R + 1), ?_, fun t ht a => ?_⟩
  · rw [Metric.mem_closedBall, dist_pi_le_iff (by linarith)]
    intro i
    rw [Real.dist_eq, add_sub_cancel_left, abs_of_nonneg (by linarith)]
  · rw [Metric.mem_closedBall, dist_pi_le_iff (by linarith), not_forall] at ht
    obtain ⟨i, hi⟩ := ht
    rw [not_le, Real.dist_eq] at hi
    rw [hval t a i (by linarith), hval (fun i => prior i + (R + 1)) priorR 0 (by rw [add_sub_cancel_left, abs_of_nonneg (by linarith)]; linarith)]
    have := mul_nonneg (sq_nonneg rw') (sq_nonneg (priorR - a))
    have e : rw' ^ 2 * (priorR - priorR) ^ 2 = 0 := by ring
    linarith

/-- If the value of a point is a continuous function of its position, and if the translation has a weight or all points far away have the value 1, then there is a best pose. -/
theorem best_of_continuous (tw rw' mw : ℝ) (prior : Fin 2 → ℝ) (priorR : ℝ) (numeric : Bool) (S : ScanTerm 2) (V : (Fin 2 → ℝ) → ℝ) (hc : Continuous V)
    (hfar : tw ≠ 0 ∨ ∃ R₁ : ℝ, ∀ q i, R₁ < |q i| → V q = 1)
    (hV : ∀ q, (if numeric then S.evaluateDouble q else S.evaluateJet q) = .fin (V q)) : ∃ t r, BestPose (problem2d tw rw' mw prior priorR numeric S).cost t r ∧ |priorR - r 0| ≤ π := by
  set C := closedCost tw rw' mw prior priorR S.points V with hC
  have hCc : Continuous C := closedCost_continuous tw rw' mw prior priorR S.points V hc
  obtain ⟨R, hRp, t₀, ht₀, hfar⟩ : ∃ R, 0 ≤ R ∧ ∃ t₀ ∈ Metric.closedBall prior R, ∀ t ∉ Metric.closedBall prior R, ∀ a, C (t₀, priorR) ≤ C (t, a) := by
    by_cases htw : tw = 0
    · subst htw
      obtain ⟨R₁, h⟩ := hfar.resolve_left (fun h => h rfl)
      exact far_of_const rw' mw prior priorR S.points V R₁ h
    · exact far_of_weight tw rw' mw htw prior priorR S.points V
  have hK : IsCompact (Metric.closedBall prior R ×ˢ Set.Icc (priorR - π) (priorR + π)) := (isCompact_closedBall prior R).prod isCompact_Icc
  have hmem : (t₀, priorR) ∈ Metric.closedBall prior R ×ˢ Set.Icc (priorR - π) (priorR + π) := ⟨ht₀, by constructor <;> linarith [pi_pos]⟩
  obtain ⟨⟨t, a⟩, hta, hmin⟩ := hK.exists_isMinOn ⟨_, hmem⟩ hCc.continuousOn
  have hle : ∀ t' a', |priorR - a'| ≤ π → C (t, a) ≤ C (t', a') := by
    intro t' a' ha'
    by_cases ht : t' ∈ Metric.closedBall prior R
    · refine hmin (show (t', a') ∈ _ from ⟨ht, ?_⟩)
      have := abs_le.1 ha'
      constructor <;> linarith [this.1, this.2]
    · exact (hmin hmem).trans (hfar t' ht a')
  have hapi : |priorR - a| ≤ π := by
    have := hta.2
    rw [abs_le]
    constructor <;> linarith [this.1, this.2]
  refine ⟨t, ![a], ⟨C (t, a), ?_, fun t' r' => ?_⟩, hapi⟩
  · obtain ⟨a', h1, h2, h3⟩ := cost_closed tw rw' mw prior priorR numeric S V hV t ![a]
    rw [h3]
    congr 1
    have hsq : (priorR - a') ^ 2 = (priorR - a) ^ 2 := by
      refine sq_eq_of_sameAngle h1 hapi ?_
      obtain ⟨k, hk⟩ := h2
      have hk' : a' - a = 2 * π * k := hk
      exact ⟨-k, by push_cast; linarith⟩
    have hmv : ∀ p, moved2 t a' p = moved2 t a p := by
      intro p
      obtain ⟨hs, hc⟩ := sameAngle_sin (show SameAngle a' a from h2)
      unfold moved2
      rw [hs, hc]
    rw [hC]
    unfold closedCost
    simp only [hmv, hsq]
  · obtain ⟨a', h1, _, h3⟩ := cost_closed tw rw' mw prior priorR numeric S V hV t' r'
    exact ⟨_, h3, hle t' a' h1⟩

/-! ### maps -/

/-- the value of `Evaluate`; no value stands for an access outside of the map -/
def toFl : Option ℝ → Fl ℝ
  | some x => .fin x
  | none => .nan

/-- sampling a static map is defined everywhere, and gives 0 outside of the map -/
theorem static_sample_total {D : Type} [Inhabited D] (size : Fin 2 → Nat) (lo : Idx 2) {exp : D → Bool} (st : St (Kind.static size lo).backend D) (hR : MapReachable (.static size lo) exp st) (g : Geo ℝ 2) (hr : 0 < g.r)
    (dens : D → Pt ℝ 2 → ℝ) (p : Pt ℝ 2) :
    (∃ x, sampleNNAt g false dens p st = some x) ∧ (¬ Spec.Region g.r (.static size lo) (g.toMap p) → sampleNNAt g false dens p st = some 0) := by
  have hv : ∀ i, st.valid false i = ((Kind.static size lo).init D).abs.valid false i := fun i => hR.spec.2.valid i
  unfold sampleNNAt sampleNN
  refine ⟨?_, ?_⟩
  · by_cases hval : st.valid false (toBundleIndex g.r (g.toMap p)) = true
    · refine (sampleWith_spec (arrayLawful 2) false _ _ _ st hR.spec.1).2 ?_
      rw [hv] at hval
      exact (hR.spec.2.good _).2 (Kind.static_good size lo _ hval)
    · unfold sampleWith; rw [if_neg hval]; exact ⟨0, rfl⟩
  · intro hreg
    unfold sampleWith
    rw [if_neg]
    rw [hv]
    exact fun e => hreg ((valid_iff_region D g.r hr (.static size lo) _).1 e)

/-- The origin of the map keeps bounded regions bounded: the points whose map coordinates are at most `B` are not arbitrarily far away. Every rigid transformation does so. -/
def Spec.KeepsBounded (T : Pt ℝ 2 → Pt ℝ 2) : Prop := ∀ B : ℝ, ∃ R : ℝ, ∀ q, (∀ i, |T q i| ≤ B) → ∀ i, |q i| ≤ R

/-- maps that preserve distances do -/
theorem keepsBounded_of_rigid {T : Pt ℝ 2 → Pt ℝ 2} (h : ∀ p q, distSq (T p) (T q) = distSq p q) : KeepsBounded T := by
  intro B
  refine ⟨√((|B| + |T 0 0|) ^ 2 + (|B| + |T 0 1|) ^ 2), fun q hq i => ?_⟩
  have h1 : q i ^ 2 ≤ distSq q 0 := by
    have := Finset.single_le_sum (f := fun i => (q i - (0 : Pt ℝ 2) i) ^ 2) (fun j _ => sq_nonneg _) (Finset.mem_univ i)
    simpa [distSq] using this
  have h2 : distSq (T q) (T 0) ≤ (|B| + |T 0 0|) ^ 2 + (|B| + |T 0 1|) ^ 2 := by
    have k : ∀ i, (T q i - T 0 i) ^ 2 ≤ (|B| + |T 0 i|) ^ 2 := by
      intro i
      rw [← sq_abs (T q i - T 0 i)]
      refine pow_le_pow_left₀ (abs_nonneg _) ((abs_sub _ _).trans (add_le_add ((hq i).trans (le_abs_self B)) le_rfl)) 2
    unfold distSq
    rw [Fin.sum_univ_two]
    exact add_le_add (k 0) (k 1)
  rw [← sqrt_sq_eq_abs]
  exact sqrt_le_sqrt (h1.trans (by rw [← h]; exact h2))

theorem spline_one (w : Int → ℝ) (x : ℝ) (h : ∀ n, ⌊x⌋ - 1 ≤ n → n ≤ ⌊x⌋ + 2 → w n = 1) : spline w x = 1 := by
  unfold spline piece
  rw [h _ (by omega) (by omega), h _ (by omega) (by omega), h _ (by omega) (by omega), h _ (by omega) (by omega)]
  unfold hermite
  ring

theorem grid_near (x s : ℝ) (hs : s ≠ 0) (n : Int) (h1 : ⌊x / s⌋ - 1 ≤ n) (h2 : n ≤ ⌊x / s⌋ + 2) : |x| ≤ |n * s| + 2 * |s| := by
  have k1 : x / s < ⌊x / s⌋ + 1 := Int.lt_floor_add_one _
  have k2 : (⌊x / s⌋ : ℝ) ≤ x / s := Int.floor_le _
  have k3 : ((⌊x / s⌋ : Int) : ℝ) - 1 ≤ n := by exact_mod_cast h1
  have k4 : (n : ℝ) ≤ ⌊x / s⌋ + 2 := by exact_mod_cast h2
  have h : |(x / s - n)| ≤ 2 := by rw [abs_le]; constructor <;> linarith
  have e : x = n * s + (x / s - n) * s := by field_simp; ring
  calc |x| = |n * s + (x / s - n) * s| := by rw [← e]
    _ ≤ |n * s| + |(x / s - n) * s| := abs_add_le _ _
    _ ≤ |n * s| + 2 * |s| := by
        rw [abs_mul (x / s - n)]
        have := mul_le_mul_of_nonneg_right h (abs_nonneg s)
        linarith

/-- far from a static map the interpolated value is 1 -/
theorem interp_far {D : Type} [Inhabited D] (size : Fin 2 → Nat) (lo : Idx 2) {exp : D → Bool} (st : St (Kind.static size lo).backend D) (hR : MapReachable (.static size lo) exp st) (g : Geo ℝ 2) (hr : 0 < g.r) (hT : KeepsBounded g.toMap)
    (dens : D → Pt ℝ 2 → ℝ) (s : ℝ) (hs : s ≠ 0) : ∃ R₁ : ℝ, ∀ q i, R₁ < |q i| → interpValue g false dens st s q = 1 := by
  obtain ⟨R, hB⟩ := hT (((|(lo 0 : ℝ)| + 2 * size 0 + 1) + (|(lo 1 : ℝ)| + 2 * size 1 + 1)) * (g.r / 2))
  have hreg : ∀ q, Spec.Region g.r (.static size lo) (g.toMap q) → ∀ i, |q i| ≤ R := by
    intro q hq
    refine hB q fun i => ?_
    obtain ⟨h1, h2⟩ := hq i
    have k : ∀ i, |g.toMap q i| ≤ (|(lo i : ℝ)| + 2 * size i + 1) * (g.r / 2) := by
      intro i
      obtain ⟨h1, h2⟩ := hq i
      have a1 := neg_abs_le (lo i : ℝ)
      have a2 := le_abs_self (lo i : ℝ)
      have a3 : (0 : ℝ) ≤ size i := Nat.cast_nonneg _
      rw [abs_le]
      constructor <;> nlinarith
    have p0 : 0 ≤ (|(lo 0 : ℝ)| + 2 * size 0 + 1) * (g.r / 2) := (abs_nonneg _).trans (k 0)
    have p1 : 0 ≤ (|(lo 1 : ℝ)| + 2 * size 1 + 1) * (g.r / 2) := (abs_nonneg _).trans (k 1)
    have := k i
    rw [add_mul]
    fin_cases i
    · exact this.trans (le_add_of_nonneg_right p1)
    · exact this.trans (le_add_of_nonneg_left p0)
  refine ⟨R + 2 * |s|, fun q i hi => ?_⟩
  have hgrid : ∀ n m : Int, ⌊q 0 / s⌋ - 1 ≤ n → n ≤ ⌊q 0 / s⌋ + 2 → ⌊q 1 / s⌋ - 1 ≤ m → m ≤ ⌊q 1 / s⌋ + 2 → gridValue g false dens st s n m = some 1 := by
    intro n m h1 h2 h3 h4
    have hout : ¬ Spec.Region g.r (.static size lo) (g.toMap ![n * s, m * s]) := by
      intro hh
      have hq := hreg _ hh i
      have hnear : |q i| ≤ |(![n * s, m * s] : Pt ℝ 2) i| + 2 * |s| := by
        fin_cases i
        · exact grid_near (q 0) s hs n h1 h2
        · exact grid_near (q 1) s hs m h3 h4
      linarith
    unfold gridValue
    rw [(static_sample_total size lo st hR g hr dens _).2 hout]
    simp
  obtain ⟨j, hj⟩ := interpJet_defined g false dens st s q fun n m _ _ _ _ => (static_sample_total size lo st hR g hr dens _).1
  have := interpJet_eq g false dens st s q j hj
  unfold interpValue
  rw [hj, this]
  show spline (fun i => spline (fun k => (gridValue g false dens st s i k).getD 0) (q 1 / s)) (q 0 / s) = 1
  refine spline_one _ _ fun n h1 h2 => spline_one _ _ fun m h3 h4 => ?_
  rw [hgrid n m h1 h2 h3 h4]
  rfl

/-- **C125** (interpolation, partial). Create the cost with interpolation and automatic differentiation on a static map (any contents that any sequence of operations can give it), with a non-zero sampling resolution. If the translation weight is not zero
or the origin of the map is a rigid transformation, then there is a best pose, whatever the scan, the prior pose, the densities and the weights; its rotation can be chosen within half a turn of the prior. The value is the one that comes
with the derivatives. (Missing: the cost without interpolation and the cost that is computed without derivatives, see `C125_direct_refuted`.) -/
theorem C125_interpolated_partial {D : Type} [Inhabited D] (size : Fin 2 → Nat) (lo : Idx 2) {exp : D → Bool} (st : St (Kind.static size lo).backend D) (hR : MapReachable (.static size lo) exp st) (g : Geo ℝ 2) (hr : 0 < g.r)
    (dens : D → Pt ℝ 2 → ℝ) (s : ℝ) (hs : s ≠ 0) (points : List (Fin 2 → ℝ)) (onlyValue : (Fin 2 → ℝ) → Fl ℝ) (tw rw' mw : ℝ) (htw : tw ≠ 0 ∨ KeepsBounded g.toMap) (prior : Fin 2 → ℝ) (priorR : ℝ) :
    ∃ t r, BestPose (problem2d tw rw' mw prior priorR false ⟨points, onlyValue, fun q => toFl ((interpJet g false dens st s q).map Jet2.value)⟩).cost t r ∧ |priorR - r 0| ≤ π := by
  have hdef : ∀ q, ∃ j, interpJet g false dens st s q = some j := fun q => interpJet_defined g false dens st s q fun n m _ _ _ _ => (static_sample_total size lo st hR g hr dens _).1
  refine best_of_continuous tw rw' mw prior priorR false _ (interpValue g false dens st s) ?_ (htw.imp_right fun hT => interp_far size lo st hR g hr hT dens s hs) ?_
  · refine continuous_iff_continuousAt.2 fun q => ?_
    obtain ⟨_, _, _, _, hc, _⟩ := C85_differentiable g false dens st s hs q (Eventually.of_forall fun p => by
      obtain ⟨j, hj⟩ := hdef p
      rw [hj]; rfl)
    exact hc
  · intro q
    obtain ⟨j, hj⟩ := hdef q
    show toFl ((interpJet g false dens st s q).map Jet2.value) = _
    unfold interpValue
    rw [hj]
    rfl

/-- the value of `Evaluate` on an occupancy map; the problem is not used if there is an exception -/
def okFl : Except String (Option ℝ) → Fl ℝ
  | .ok x => toFl x
  | .error _ => .nan

/-- **C125** (interpolation on occupancy maps, partial). The same for occupancy maps with an inverse sensor model. -/
theorem C125_interpolated_occupancy_partial {W E M : Type} [AddCommMonoid W] (size : Fin 2 → Nat) (lo : Idx 2) {exp : Occ W E → Bool} (st : St (Kind.static size lo).backend (Occ W E)) (hR : MapReachable (.static size lo) exp st)
    (g : Geo ℝ 2) (hr : 0 < g.r) (dens : Multiset E → Pt ℝ 2 → ℝ) (occ : M → Occ W E → ℝ) (m : M) (s : ℝ) (hs : s ≠ 0) (points : List (Fin 2 → ℝ)) (onlyValue : (Fin 2 → ℝ) → Fl ℝ) (tw rw' mw : ℝ)
    (htw : tw ≠ 0 ∨ KeepsBounded g.toMap) (prior : Fin 2 → ℝ) (priorR : ℝ) :
    ∃ t r, BestPose (problem2d tw rw' mw prior priorR false ⟨points, onlyValue, fun q => okFl ((occInterpJet g false dens occ (some m) st s q).map fun j => j.map Jet2.value)⟩).cost t r ∧ |priorR - r 0| ≤ π :=
  C125_interpolated_partial size lo st hR g hr (fun o x => occValue dens (occ m) x o) s hs points onlyValue tw rw' mw htw prior priorR

open scoped Classical in
/-- the samples of the spike map, at every point -/
theorem spike_samples_all (exp : Multiset (Pt ℝ 2) → Bool) (st : St spikeKind.backend (Multiset (Pt ℝ 2))) (h : gridRun spikeGeo spikeKind.dyn exp spikeOps (spikeKind.init _) = some st)
    (dens : Multiset (Pt ℝ 2) → Pt ℝ 2 → ℝ) (q : Pt ℝ 2) :
    st.sampleNNAt spikeGeo false dens q = some (if (0 ≤ q 0 ∧ q 0 < 1 / 2) ∧ (0 ≤ q 1 ∧ q 1 < 1 / 2) then dens spikePoints q else 0) := by
  have hr : 0 < spikeGeo.r := by norm_num [spikeGeo]
  have hz : spikeGeo.toMap q = q := rfl
  split_ifs with hreg
  · obtain ⟨x, hx⟩ := (C24_static_total ![1, 1] ![0, 0] spikeGeo hr exp spikeOps st h dens q).1
    have hb : Spec.InBundle spikeGeo.r ![0, 0] (spikeGeo.toMap q) := (C01_bundle_contains_point hr _ _).1 (by rw [hz]; exact spike_tb _ hreg)
    have hall : (![0, 0] : Idx 2) ∈ st.bundleIndices := by
      obtain ⟨hI, _, _, h4⟩ := gridRun_spec spikeKind.lawful spikeGeo spikeKind.dyn exp spikeOps _ st spikeKind.init_rinv h
      have hp : (![1/10, 1/10] : Pt ℝ 2) ∈ Spec.accepted spikeGeo spikeKind spikeOps := by rw [spike_accepted]; simp [spikePoints]
      rw [← accOps_eq (Multiset (Pt ℝ 2)) spikeGeo hr, Multiset.mem_coe] at hp
      have h5 := h4 _ hp
      rw [spike_tb _ (by norm_num)] at h5
      exact (mem_bundleIndices spikeKind.lawful st hI.inv _).2 ((mem_allocated_iff st _).1 h5)
    have hmean := (C24_sample_is_mean spikeKind spikeGeo hr exp spikeOps st h dens q ![0, 0] hb x hx).1 ⟨(spike_region _).2 hreg, hall⟩
    have hcell : ∀ c, cellMates spikeGeo.r (Spec.accepted spikeGeo spikeKind spikeOps) c (spikeGeo.toMap q) = (spikePoints : Multiset (Pt ℝ 2)) := by
      intro c
      unfold cellMates
      rw [spike_accepted, Multiset.filter_eq_self]
      intro p hp
      rw [hz]
      have hp' : toBundleIndex spikeGeo.r p = ![0, 0] := spike_tb p (by
        simp [spikePoints] at hp
        rcases hp with rfl | rfl | rfl <;> norm_num)
      have e0 : toBundleIndex spikeGeo.r q = ![0, 0] := spike_tb _ hreg
      exact ⟨_, (C01_point_in_selected_cell hr _ c _).1 rfl, (C01_point_in_selected_cell hr _ c _).1 (by rw [hp', e0])⟩
    refine (show _ = some x from hx).trans ?_
    rw [hmean]
    simp only [hcell]
    rw [hz, Finset.sum_const, Finset.card_range]
    congr 1
    simp
    ring
  · refine (C24_static_total ![1, 1] ![0, 0] spikeGeo hr exp spikeOps st h dens q).2 ?_
    exact fun hh => hreg ((spike_region _).1 hh)

/-- density 1 of a bundle of points -/
def spikeDensity (S : Multiset (Pt ℝ 2)) (_ : Pt ℝ 2) : ℝ := if S.card = 0 then 0 else 1

/-- **C125** is false of the cost without interpolation, and of the interpolated cost where it is computed without derivatives. On a static map of one cell, whose density is 1 wherever it has points, with a scan of one point and the prior position at
the upper border of the cell: for every pose there is a better one, whatever the weights (if the map and the translation have any). The better poses approach the border, but at the border the sample is that of the neighbouring bundle. -/
theorem C125_direct_refuted : ∃ (k : Kind 2) (g : Geo ℝ 2) (ops : List (GridOp ℝ 2)) (dens : Multiset (Pt ℝ 2) → Pt ℝ 2 → ℝ) (points : List (Fin 2 → ℝ)) (prior : Fin 2 → ℝ), 0 < g.r ∧ (∀ S q, 0 ≤ dens S q ∧ dens S q ≤ 1) ∧ points ≠ [] ∧
    ∀ exp, ∃ st, gridRun g k.dyn exp ops (k.init _) = some st ∧ ∀ (valid : Multiset (Pt ℝ 2) → Bool) (bell : Multiset (Pt ℝ 2) → Pt ℝ 2 → ℝ), (∀ S p, dens S p = if valid S then bell S p else 0) →
      ∀ (tw rw' mw priorR : ℝ), tw ≠ 0 → mw ≠ 0 →
        (∀ numeric, AlwaysBetter (problem2d tw rw' mw prior priorR numeric ⟨points, fun q => toFl (evaluateDouble g k.dyn dens st q), fun q => toFl (evaluateJet g k.dyn valid bell st q)⟩).cost) ∧
        ∀ jet, AlwaysBetter (problem2d tw rw' mw prior priorR true ⟨points, fun q => toFl (interpDouble g k.dyn dens st q), jet⟩).cost := by
  refine ⟨spikeKind, spikeGeo, spikeOps, spikeDensity, [![0, 0]], ![1 / 2, 0], by norm_num [spikeGeo], ?_, by simp, fun exp => ?_⟩
  · intro S q
    unfold spikeDensity
    split <;> norm_num
  obtain ⟨st, h⟩ : ∃ st, gridRun spikeGeo spikeKind.dyn exp spikeOps (spikeKind.init (Multiset (Pt ℝ 2))) = some st :=
    Option.isSome_iff_exists.1 (C16_static_in_bounds ![1, 1] ![0, 0] spikeGeo exp spikeOps)
  refine ⟨st, h, fun valid bell hb tw rw' mw priorR htw hmw => ?_⟩
  classical
  let V : (Fin 2 → ℝ) → ℝ := fun q => if (0 ≤ q 0 ∧ q 0 < 1 / 2) ∧ (0 ≤ q 1 ∧ q 1 < 1 / 2) then 0 else 1
  have hsm : ∀ q, st.sampleNNAt spikeGeo spikeKind.dyn spikeDensity q = some (1 - V q) := by
    intro q
    refine (spike_samples_all exp st h spikeDensity q).trans ?_
    have : spikeDensity (spikePoints : Multiset (Pt ℝ 2)) q = 1 := by simp [spikeDensity, spikePoints]
    rw [this]
    simp only [V]
    split_ifs <;> norm_num
  have hdbl : ∀ q, toFl (evaluateDouble spikeGeo spikeKind.dyn spikeDensity st q) = .fin (V q) := by
    intro q
    unfold evaluateDouble
    rw [hsm]
    simp [toFl]
  have hjet : ∀ q, toFl (evaluateJet spikeGeo spikeKind.dyn valid bell st q) = .fin (V q) := by
    intro q
    rw [C62_gridmap spikeGeo spikeKind.dyn valid bell spikeDensity hb]
    exact hdbl q
  have hint : ∀ q, toFl (interpDouble spikeGeo spikeKind.dyn spikeDensity st q) = .fin (V q) := by
    intro q
    have e : (![q 0, q 1] : Pt ℝ 2) = q := by ext i; fin_cases i <;> rfl
    unfold interpDouble
    rw [e, hsm]
    simp [toFl]
  have key : ∀ numeric (S : ScanTerm 2), S.points = [![0, 0]] → (∀ q, (if numeric then S.evaluateDouble q else S.evaluateJet q) = .fin (V q)) → AlwaysBetter (problem2d tw rw' mw ![1 / 2, 0] priorR numeric S).cost := by
    intro numeric S hS hV t r
    have hcl := fun t r => cost_closed tw rw' mw ![1 / 2, 0] priorR numeric S V hV t r
    have hval : ∀ t a, closedCost tw rw' mw ![1 / 2, 0] priorR S.points V (t, a) = 1 / 2 * (mw ^ 2 * V t ^ 2 + tw ^ 2 * ((t 0 - 1 / 2) ^ 2 + t 1 ^ 2) + rw' ^ 2 * (priorR - a) ^ 2) := by
      intro t a
      have e : moved2 t a ![0, 0] = t := by
        unfold moved2
        ext i
        fin_cases i <;> simp
      unfold closedCost
      rw [hS]
      simp [mean, distSq, Fin.sum_univ_two, e]
    have htw2 : 0 < tw ^ 2 := by positivity
    have hmw2 : 0 < mw ^ 2 := by positivity
    obtain ⟨a, ha1, ha2, hca⟩ := hcl t r
    rw [hval] at hca
    by_cases hin : (0 ≤ t 0 ∧ t 0 < 1 / 2) ∧ (0 ≤ t 1 ∧ t 1 < 1 / 2)
    · obtain ⟨b, hb1, hb2, hcb⟩ := hcl ![(t 0 + 1 / 2) / 2, t 1] r
      rw [hval] at hcb
      refine ⟨_, _, _, _, hca, hcb, ?_⟩
      have v1 : V t = 0 := if_pos hin
      have v2 : V ![(t 0 + 1 / 2) / 2, t 1] = 0 := if_pos (by
        obtain ⟨⟨h1, h2⟩, h3⟩ := hin
        exact ⟨⟨by show 0 ≤ (t 0 + 1 / 2) / 2; linarith, by show (t 0 + 1 / 2) / 2 < 1 / 2; linarith⟩, h3⟩)
      have hsq : (priorR - b) ^ 2 = (priorR - a) ^ 2 := by
        refine sq_eq_of_sameAngle hb1 ha1 ?_
        obtain ⟨k, hk⟩ := hb2
        obtain ⟨l, hl⟩ := ha2
        exact ⟨l - k, by push_cast; linarith⟩
      rw [v1, v2, hsq]
      show 1 / 2 * (mw ^ 2 * 0 ^ 2 + tw ^ 2 * (((t 0 + 1 / 2) / 2 - 1 / 2) ^ 2 + t 1 ^ 2) + rw' ^ 2 * (priorR - a) ^ 2) < _
      have : 0 < (1 / 2 - t 0) ^ 2 := by
        have := hin.1.2
        have : 0 < 1 / 2 - t 0 := by linarith
        positivity
      nlinarith [mul_pos htw2 this]
    · -- a pose just below the border, with the prior rotation
      set δ := min (1 / 2) (|mw| / (2 * |tw|)) with hδ
      have hδp : 0 < δ := lt_min (by norm_num) (by positivity)
      have hδ1 : δ ≤ 1 / 2 := min_le_left _ _
      have hδ2 : tw ^ 2 * δ ^ 2 < mw ^ 2 := by
        have h1 : |tw| * δ ≤ |mw| / 2 := by
          have := mul_le_mul_of_nonneg_left (min_le_right (1 / 2 : ℝ) (|mw| / (2 * |tw|))) (abs_nonneg tw)
          have e : |tw| * (|mw| / (2 * |tw|)) = |mw| / 2 := by
            have : |tw| ≠ 0 := abs_ne_zero.2 htw
            field_simp
          rwa [e] at this
        have h2 : (|tw| * δ) ^ 2 ≤ (|mw| / 2) ^ 2 := pow_le_pow_left₀ (by positivity) h1 2
        rw [mul_pow, sq_abs, div_pow, sq_abs] at h2
        linarith
      obtain ⟨b, hb1, hb2, hcb⟩ := hcl ![1 / 2 - δ, 0] ![priorR]
      rw [hval] at hcb
      refine ⟨_, _, _, _, hca, hcb, ?_⟩
      have v1 : V t = 1 := if_neg hin
      have v2 : V ![1 / 2 - δ, 0] = 0 := if_pos (by
        refine ⟨⟨by show 0 ≤ 1 / 2 - δ; linarith, by show 1 / 2 - δ < 1 / 2; linarith⟩, by show (0 : ℝ) ≤ 0; norm_num, by show (0 : ℝ) < 1 / 2; norm_num⟩)
      have hsq : (priorR - b) ^ 2 = (0 : ℝ) ^ 2 := by
        refine sq_eq_of_sameAngle hb1 (by rw [abs_zero]; exact pi_pos.le) ?_
        obtain ⟨k, hk⟩ := hb2
        have hk' : b - priorR = 2 * π * k := hk
        exact ⟨-k, by push_cast; linarith⟩
      rw [v1, v2, hsq]
      show 1 / 2 * (mw ^ 2 * 0 ^ 2 + tw ^ 2 * ((1 / 2 - δ - 1 / 2) ^ 2 + 0 ^ 2) + rw' ^ 2 * 0 ^ 2) < _
      have e : (1 / 2 - δ - 1 / 2) ^ 2 + 0 ^ 2 = δ ^ 2 := by ring
      rw [e]
      have h1 := mul_nonneg htw2.le (add_nonneg (sq_nonneg (t 0 - 1 / 2)) (sq_nonneg (t 1)))
      have h2 := mul_nonneg (sq_nonneg rw') (sq_nonneg (priorR - a))
      nlinarith
  refine ⟨fun numeric => key numeric _ rfl fun q => ?_, fun jet => key true _ rfl fun q => ?_⟩
  · cases numeric
    · exact hjet q
    · exact hdbl q
  · exact hint q

/-- **C125** is false of nlopt and alglib, which do not interpolate: on the same map, with the initial guess at the border, for every pose there is a better one, whatever the weights (if map and translation have positive weights). `tiny` is the
smallest normal number. -/
theorem C125_nlopt_alglib_refuted : ∃ (k : Kind 2) (g : Geo ℝ 2) (ops : List (GridOp ℝ 2)) (dens : Multiset (Pt ℝ 2) → Pt ℝ 2 → ℝ) (points : List (Fin 2 → ℝ)) (guess : Fin 3 → ℝ), 0 < g.r ∧ (∀ S q, 0 ≤ dens S q ∧ dens S q ≤ 1) ∧ points ≠ [] ∧
    ∀ exp, ∃ st, gridRun g k.dyn exp ops (k.init _) = some st ∧ ∀ (dif : ℝ → ℝ → ℝ) (tw rw' mw tiny : ℝ), AngleDif dif → 0 < tw → 0 ≤ rw' → 0 < mw → 0 < tiny → tiny ≤ 1 → ∀ x, ∃ y,
      let F : Functor 3 2 := ⟨points, fun q => toFl (st.sampleNNAt g k.dyn dens q), fun x => moved2 ![x 0, x 1] (x 2), dif, guess, tw, rw', mw, tiny⟩
      F.nlopt2 y < F.nlopt2 x ∧ sumSq (F.alglib2 y) < sumSq (F.alglib2 x) := by
  refine ⟨spikeKind, spikeGeo, spikeOps, spikeDensity, [![0, 0]], ![1 / 2, 0, 0], by norm_num [spikeGeo], ?_, by simp, fun exp => ?_⟩
  · intro S q
    unfold spikeDensity
    split <;> norm_num
  obtain ⟨st, h⟩ : ∃ st, gridRun spikeGeo spikeKind.dyn exp spikeOps (spikeKind.init (Multiset (Pt ℝ 2))) = some st :=
    Option.isSome_iff_exists.1 (C16_static_in_bounds ![1, 1] ![0, 0] spikeGeo exp spikeOps)
  refine ⟨st, h, fun dif tw rw' mw tiny hd htw hrw hmw ht0 ht1 x => ?_⟩
  classical
  let V : (Fin 2 → ℝ) → ℝ := fun q => if (0 ≤ q 0 ∧ q 0 < 1 / 2) ∧ (0 ≤ q 1 ∧ q 1 < 1 / 2) then 0 else 1
  have hpc : ∀ q, pointCost tiny (toFl (st.sampleNNAt spikeGeo spikeKind.dyn spikeDensity q)) = V q := by
    intro q
    have h1 : spikeDensity (spikePoints : Multiset (Pt ℝ 2)) q = 1 := by simp [spikeDensity, spikePoints]
    have h2 := spike_samples_all exp st h spikeDensity q
    rw [h1] at h2
    rw [show st.sampleNNAt spikeGeo spikeKind.dyn spikeDensity q = _ from h2]
    simp only [V, toFl]
    split_ifs
    · simp [pointCost, Fl.isNormal, value, ht1]
    · simp [pointCost, Fl.isNormal, not_le.2 ht0]
  let F : Functor 3 2 := ⟨[![0, 0]], fun q => toFl (st.sampleNNAt spikeGeo spikeKind.dyn spikeDensity q), fun x => moved2 ![x 0, x 1] (x 2), dif, ![1 / 2, 0, 0], tw, rw', mw, tiny⟩
  have hact : ∀ z : Fin 3 → ℝ, moved2 ![z 0, z 1] (z 2) ![0, 0] = ![z 0, z 1] := by
    intro z
    unfold moved2
    ext i
    fin_cases i <;> simp
  have e1 : ∀ z, F.nlopt2 z = mw * V ![z 0, z 1] + tw * √((z 0 - 1 / 2) ^ 2 + z 1 ^ 2) + rw' * |dif (z 2) 0| := by
    intro z
    simp [F, Functor.nlopt2, Functor.weighted, Functor.sumCost, Functor.trans2, Functor.rot2, hypot2, hact, hpc, sq]
  have e2 : ∀ z, sumSq (F.alglib2 z) = mw ^ 2 * V ![z 0, z 1] ^ 2 + tw ^ 2 * ((z 0 - 1 / 2) ^ 2 + z 1 ^ 2) + rw' ^ 2 * dif (z 2) 0 ^ 2 := by
    intro z
    simp [F, Functor.alglib2, Functor.alglibPoints, sumSq, hact, hpc]
    rw [mul_pow rw', sq_abs]
    ring
  have hd0 : dif 0 0 = 0 := (hd 0 0).2 (sameAngle_refl 0)
  by_cases hin : (0 ≤ x 0 ∧ x 0 < 1 / 2) ∧ (0 ≤ x 1 ∧ x 1 < 1 / 2)
  · refine ⟨![(x 0 + 1 / 2) / 2, x 1, x 2], ?_⟩
    show F.nlopt2 _ < F.nlopt2 x ∧ sumSq (F.alglib2 _) < sumSq (F.alglib2 x)
    have v1 : V ![x 0, x 1] = 0 := if_pos hin
    have v2 : V ![(x 0 + 1 / 2) / 2, x 1] = 0 := if_pos (by
      obtain ⟨⟨h1, h2⟩, h3⟩ := hin
      exact ⟨⟨by show 0 ≤ (x 0 + 1 / 2) / 2; linarith, by show (x 0 + 1 / 2) / 2 < 1 / 2; linarith⟩, h3⟩)
    have hlt : ((x 0 + 1 / 2) / 2 - 1 / 2) ^ 2 + x 1 ^ 2 < (x 0 - 1 / 2) ^ 2 + x 1 ^ 2 := by
      have : 0 < 1 / 2 - x 0 := by linarith [hin.1.2]
      nlinarith [mul_pos this this]
    rw [e1, e1, e2, e2]
    simp only [Matrix.cons_val_zero, Matrix.cons_val_one, Matrix.cons_val]
    rw [v1, v2]
    constructor
    · have := mul_lt_mul_of_pos_left (sqrt_lt_sqrt (by positivity) hlt) htw
      linarith
    · have := mul_lt_mul_of_pos_left hlt (pow_pos htw 2)
      linarith
  · set δ := min (1 / 2) (mw / (2 * tw)) with hδ
    have hδp : 0 < δ := lt_min (by norm_num) (by positivity)
    have hδ1 : δ ≤ 1 / 2 := min_le_left _ _
    have hδ2 : tw * δ ≤ mw / 2 := by
      have := mul_le_mul_of_nonneg_left (min_le_right (1 / 2 : ℝ) (mw / (2 * tw))) htw.le
      have e : tw * (mw / (2 * tw)) = mw / 2 := by field_simp
      rwa [e] at this
    refine ⟨![1 / 2 - δ, 0, 0], ?_⟩
    show F.nlopt2 _ < F.nlopt2 x ∧ sumSq (F.alglib2 _) < sumSq (F.alglib2 x)
    have v1 : V ![x 0, x 1] = 1 := if_neg hin
    have v2 : V ![1 / 2 - δ, 0] = 0 := if_pos (by
      refine ⟨⟨by show 0 ≤ 1 / 2 - δ; linarith, by show 1 / 2 - δ < 1 / 2; linarith⟩, by show (0 : ℝ) ≤ 0; norm_num, by show (0 : ℝ) < 1 / 2; norm_num⟩)
    rw [e1, e1, e2, e2]
    simp only [Matrix.cons_val_zero, Matrix.cons_val_one, Matrix.cons_val]
    rw [v1, v2, hd0, show (1 / 2 - δ - 1 / 2) ^ 2 + (0 : ℝ) ^ 2 = δ ^ 2 by ring]
    constructor
    · rw [sqrt_sq hδp.le, abs_zero]
      have h1 := mul_nonneg htw.le (sqrt_nonneg ((x 0 - 1 / 2) ^ 2 + x 1 ^ 2))
      have h2 := mul_nonneg hrw (abs_nonneg (dif (x 2) 0))
      linarith
    · have h1 : 0 ≤ tw ^ 2 * ((x 0 - 1 / 2) ^ 2 + x 1 ^ 2) := by positivity
      have h2 : 0 ≤ rw' ^ 2 * dif (x 2) 0 ^ 2 := by positivity
      have h3 : (tw * δ) ^ 2 ≤ (mw / 2) ^ 2 := pow_le_pow_left₀ (by positivity) hδ2 2
      have h4 : 0 < mw ^ 2 := by positivity
      nlinarith

/-- the hypotheses of `C125_interpolated_partial` and of `C125_direct_refuted` hold of the spike map: it is built by a history, its origin is rigid, and the density is computed from a validity and a bell value -/
example : (∃ st, gridRun spikeGeo false (fun _ => true) spikeOps ((Kind.static ![1, 1] ![0, 0]).init _) = some st ∧ MapReachable (.static ![1, 1] ![0, 0]) (fun _ => true) st) ∧ 0 < spikeGeo.r ∧ KeepsBounded spikeGeo.toMap ∧
    (∀ S p, spikeDensity S p = if (fun S : Multiset (Pt ℝ 2) => decide (S.card ≠ 0)) S then (fun (_ : Multiset (Pt ℝ 2)) (_ : Pt ℝ 2) => (1 : ℝ)) S p else 0) := by
  obtain ⟨st, h⟩ := Option.isSome_iff_exists.1 (C16_static_in_bounds ![1, 1] ![0, 0] spikeGeo (fun _ => true) spikeOps)
  refine ⟨⟨st, h, grid_reachable spikeGeo (.static ![1, 1] ![0, 0]) _ spikeOps _ _ .init h⟩, by norm_num [spikeGeo], keepsBounded_of_rigid fun _ _ => rfl, fun S p => ?_⟩
  unfold spikeDensity
  by_cases h : S.card = 0 <;> simp [h]

end Ndt
