import Verif.Props.Matching

/-!
C62: automatic and numeric differentiation evaluate the same function. C65: the priors vanish at the initial guess.
-/

namespace Ndt

open Real Matching Spec

section evaluate
variable {d : Nat} {B : Backend d} {D : Type}

theorem foldl_jet {α : Type} (step : ℝ → α → ℝ) (f : α → ℝ) (h : ∀ v a, step v a = v - f a) : ∀ (l : List α) (x : ℝ), l.foldl step x = x - (l.map f).sum
  | [], x => by simp
  | a :: l, x => by
    rw [List.foldl_cons, foldl_jet step f h l, h, List.map_cons, List.sum_cons]
    ring

/-- **C62** On NDT maps, the evaluation used for automatic differentiation has the same value as the one used for numeric differentiation, in every state of the map and at every point, provided that the density of a distribution is
its bell function if it is valid, and 0 otherwise. -/
theorem C62_gridmap (g : Geo ℝ d) (dyn : Bool) (valid : D → Bool) (bell dens : D → Pt ℝ d → ℝ) (hd : ∀ s p, dens s p = if valid s then bell s p else 0) (st : St B D) (q : Pt ℝ d) :
    evaluateJet g dyn valid bell st q = evaluateDouble g dyn dens st q := by
  unfold evaluateJet evaluateDouble St.sampleNNAt St.sampleNN St.sampleWith St.getBundle
  have e : (fun a => ⌊g.toMap q a * (1 / bundleResolution g.r)⌋) = toBundleIndex g.r (g.toMap q) := rfl
  simp only [e]
  by_cases h1 : st.valid dyn (toBundleIndex g.r (g.toMap q)) = true
  · rw [if_pos h1, if_pos h1]
    by_cases h2 : B.ok st.bundles (toBundleIndex g.r (g.toMap q)) = true
    · rw [if_pos h2, if_pos h2]
      cases hb : B.get st.bundles (toBundleIndex g.r (g.toMap q)) with
      | none => simp
      | some b =>
        simp only [Option.map_some, Option.some.injEq]
        unfold jetLoop St.evaluate
        rw [foldl_add_eq, zero_add]
        refine foldl_jet _ _ (fun v i => ?_) _ _
        cases b.data i with
        | none => simp
        | some a =>
          simp only [hd]
          split_ifs <;> simp
    · rw [if_neg h2, if_neg h2]
      rfl
  · rw [if_neg h1, if_neg h1]
    simp

variable {W E M : Type}

theorem occJetLoop_eq (valid : Multiset E → Bool) (bell dens : Multiset E → Pt ℝ d → ℝ) (hd : ∀ s p, dens s p = if valid s then bell s p else 0) (occ : M → Occ W E → ℝ) (m : M) (p : Pt ℝ d) (b : Bundle)
    (st : St B (Occ W E)) : ∀ (l : List Nat) (x : ℝ), occJetLoop valid bell occ (some m) p b st l x =
      .ok (x - (l.map fun i => divCount ℝ d * (match b.data i with
        | none => 0
        | some a => St.occValue dens (occ m) p (st.heap a))).sum)
  | [], x => by simp [occJetLoop]
  | i :: l, x => by
    unfold occJetLoop
    rw [List.map_cons, List.sum_cons]
    cases hi : b.data i with
    | none =>
      simp only
      rw [occJetLoop_eq valid bell dens hd occ m p b st l]
      congr 1
      ring
    | some a =>
      simp only
      unfold St.occValue
      cases hs : (st.heap a).data with
      | none =>
        simp only
        rw [occJetLoop_eq valid bell dens hd occ m p b st l]
        unfold St.occValue
        congr 1
        ring
      | some s =>
        simp only
        rw [occJetLoop_eq valid bell dens hd occ m p b st l, hd]
        unfold St.occValue
        congr 1
        split_ifs <;> ring

/-- **C62** The same on (weighted) occupancy maps, with an inverse sensor model. -/
theorem C62_occupancy (g : Geo ℝ d) (dyn : Bool) (valid : Multiset E → Bool) (bell dens : Multiset E → Pt ℝ d → ℝ) (hd : ∀ s p, dens s p = if valid s then bell s p else 0) (occ : M → Occ W E → ℝ) (m : M)
    (st : St B (Occ W E)) (q : Pt ℝ d) : occEvaluateJet g dyn valid bell occ (some m) st q = occEvaluateDouble g dyn dens occ (some m) st q := by
  unfold occEvaluateJet occEvaluateDouble St.occSampleNNAt St.occSampleNN St.sampleWith St.getBundle
  have e : (fun a => ⌊g.toMap q a * (1 / bundleResolution g.r)⌋) = toBundleIndex g.r (g.toMap q) := rfl
  simp only [e]
  by_cases h1 : st.valid dyn (toBundleIndex g.r (g.toMap q)) = true
  · rw [if_pos h1, if_pos h1]
    by_cases h2 : B.ok st.bundles (toBundleIndex g.r (g.toMap q)) = true
    · rw [if_pos h2, if_pos h2]
      cases hb : B.get st.bundles (toBundleIndex g.r (g.toMap q)) with
      | none => simp [Except.map]
      | some b =>
        simp only
        rw [occJetLoop_eq valid bell dens hd]
        unfold St.evaluate
        rw [foldl_add_eq, zero_add]
        rfl
    · rw [if_neg h2, if_neg h2]
      rfl
  · rw [if_neg h1, if_neg h1]
    simp [Except.map]

/-- a density that satisfies the hypothesis, in one dimension: valid with at least three points, and then not 0 -/
example (g : Geo ℝ 1) (dyn : Bool) (q : Pt ℝ 1) (B : Backend 1) (st : St B (Multiset ℝ)) :
    evaluateJet g dyn (fun s => decide (3 ≤ s.card)) (fun s p => exp (-(p 0 - s.sum) ^ 2)) st q =
      evaluateDouble g dyn (fun s p => if decide (3 ≤ s.card) then exp (-(p 0 - s.sum) ^ 2) else 0) st q :=
  C62_gridmap g dyn _ _ _ (fun _ _ => rfl) st q

end evaluate

/-! ### C65 -/

theorem hypot2_eq_zero {x y : ℝ} : hypot2 x y = 0 ↔ x = 0 ∧ y = 0 := by
  unfold hypot2
  rw [sqrt_eq_zero (by nlinarith [mul_self_nonneg x, mul_self_nonneg y])]
  constructor
  · intro h
    have hx : x * x = 0 := by nlinarith [mul_self_nonneg x, mul_self_nonneg y]
    have hy : y * y = 0 := by nlinarith [mul_self_nonneg x, mul_self_nonneg y]
    exact ⟨mul_self_eq_zero.1 hx, mul_self_eq_zero.1 hy⟩
  · rintro ⟨rfl, rfl⟩
    ring

theorem hypot3_eq_zero {x y z : ℝ} : hypot3 x y z = 0 ↔ x = 0 ∧ y = 0 ∧ z = 0 := by
  unfold hypot3
  rw [sqrt_eq_zero (by nlinarith [mul_self_nonneg x, mul_self_nonneg y, mul_self_nonneg z])]
  constructor
  · intro h
    have hx : x * x = 0 := by nlinarith [mul_self_nonneg x, mul_self_nonneg y, mul_self_nonneg z]
    have hy : y * y = 0 := by nlinarith [mul_self_nonneg x, mul_self_nonneg y, mul_self_nonneg z]
    have hz : z * z = 0 := by nlinarith [mul_self_nonneg x, mul_self_nonneg y, mul_self_nonneg z]
    exact ⟨mul_self_eq_zero.1 hx, mul_self_eq_zero.1 hy, mul_self_eq_zero.1 hz⟩
  · rintro ⟨rfl, rfl, rfl⟩
    ring

/-- an angle difference as the external library documents it: zero exactly for the same rotation -/
def Spec.AngleDif (dif : ℝ → ℝ → ℝ) : Prop := ∀ a b, dif a b = 0 ↔ SameAngle a b

theorem sameAngle_refl (a : ℝ) : SameAngle a a := ⟨0, by simp⟩

/-- **C65** With nlopt on NDT maps in 2D and in 3D with Euler angles, and positive weights, the priors add nothing to the function value exactly if translation and rotation are those of the initial guess; elsewhere they add a positive amount.
The same holds for the squared priors of 2D occupancy maps (whose value is halved). -/
theorem C65_nlopt :
    (∀ (F : Functor 3 2) (x : Fin 3 → ℝ), AngleDif F.dif → 0 < F.transW → 0 < F.rotW →
      F.mapW * F.sumCost (pointCost F.tiny) x / (F.points.length : ℝ) ≤ F.nlopt2 x ∧
      (F.nlopt2 x = F.mapW * F.sumCost (pointCost F.tiny) x / (F.points.length : ℝ) ↔ x 0 = F.guess 0 ∧ x 1 = F.guess 1 ∧ SameAngle (x 2) (F.guess 2))) ∧
    (∀ (F : Functor 6 3) (x : Fin 6 → ℝ), AngleDif F.dif → 0 < F.transW → 0 < F.rotW →
      F.mapW * F.sumCost (pointCost F.tiny) x / (F.points.length : ℝ) ≤ F.nloptRPY x ∧
      (F.nloptRPY x = F.mapW * F.sumCost (pointCost F.tiny) x / (F.points.length : ℝ) ↔
        (x 0 = F.guess 0 ∧ x 1 = F.guess 1 ∧ x 2 = F.guess 2) ∧ SameAngle (x 3) (F.guess 3) ∧ SameAngle (x 4) (F.guess 4) ∧ SameAngle (x 5) (F.guess 5))) ∧
    (∀ (F : Functor 6 3) (x : Fin 6 → ℝ), AngleDif F.dif → 0 < F.transW → 0 < F.rotW →
      F.mapW * F.sumCost (pointCostSkip F.tiny) x / (F.points.length : ℝ) ≤ F.nloptOccRPY x ∧
      (F.nloptOccRPY x = F.mapW * F.sumCost (pointCostSkip F.tiny) x / (F.points.length : ℝ) ↔
        (x 0 = F.guess 0 ∧ x 1 = F.guess 1 ∧ x 2 = F.guess 2) ∧ SameAngle (x 3) (F.guess 3) ∧ SameAngle (x 4) (F.guess 4) ∧ SameAngle (x 5) (F.guess 5))) := by
  have key : ∀ (a t r w v : ℝ), 0 < w → 0 < v → 0 ≤ t → (a ≤ a + w * t + v * |r| ∧ (a + w * t + v * |r| = a ↔ t = 0 ∧ r = 0)) := by
    intro a t r w v hw hv ht
    have h1 := mul_nonneg hw.le ht
    have h2 := mul_nonneg hv.le (abs_nonneg r)
    refine ⟨by linarith, fun h => ?_, ?_⟩
    · have e1 : w * t = 0 := by linarith
      have e2 : v * |r| = 0 := by linarith
      exact ⟨(mul_eq_zero.1 e1).resolve_left hw.ne', abs_eq_zero.1 ((mul_eq_zero.1 e2).resolve_left hv.ne')⟩
    · rintro ⟨rfl, rfl⟩
      simp
  refine ⟨?_, ?_, ?_⟩
  · intro F x hd ht hr
    obtain ⟨h1, h2⟩ := key (F.mapW * F.sumCost (pointCost F.tiny) x / (F.points.length : ℝ)) (F.trans2 x) (F.rot2 x) F.transW F.rotW ht hr (sqrt_nonneg _)
    refine ⟨h1, h2.trans ?_⟩
    unfold Functor.trans2 Functor.rot2
    rw [hypot2_eq_zero, hd, sub_eq_zero, sub_eq_zero, and_assoc]
  · intro F x hd ht hr
    obtain ⟨h1, h2⟩ := key (F.mapW * F.sumCost (pointCost F.tiny) x / (F.points.length : ℝ)) (F.trans3 x) (F.rotRPY x) F.transW F.rotW ht hr (sqrt_nonneg _)
    refine ⟨h1, h2.trans ?_⟩
    unfold Functor.trans3 Functor.rotRPY
    rw [hypot3_eq_zero, hypot3_eq_zero, hd, hd, hd, sub_eq_zero, sub_eq_zero, sub_eq_zero]
  · intro F x hd ht hr
    obtain ⟨h1, h2⟩ := key (F.mapW * F.sumCost (pointCostSkip F.tiny) x / (F.points.length : ℝ)) (F.trans3 x) (F.rotRPY x) F.transW F.rotW ht hr (sqrt_nonneg _)
    refine ⟨h1, h2.trans ?_⟩
    unfold Functor.trans3 Functor.rotRPY
    rw [hypot3_eq_zero, hypot3_eq_zero, hd, hd, hd, sub_eq_zero, sub_eq_zero, sub_eq_zero]

/-- **C65** The ceres translation prior vanishes exactly at the prior translation. -/
theorem C65_translation {d : Nat} (weight : ℝ) (hw : weight ≠ 0) (prior translation : Fin d → ℝ) :
    (∀ i, translationResidual weight prior translation i = 0) ↔ translation = prior := by
  unfold translationResidual
  simp only [mul_eq_zero, hw, false_or, sub_eq_zero]
  exact funext_iff.symm

/-- **C65** The squared priors of 2D occupancy maps with nlopt vanish exactly at the initial guess. -/
theorem C65_occupancy2 (F : Functor 3 2) (x : Fin 3 → ℝ) (hd : AngleDif F.dif) (ht : 0 < F.transW) (hr : 0 < F.rotW) :
    ({ F with transW := 0, rotW := 0 } : Functor 3 2).nloptOcc2 x ≤ F.nloptOcc2 x ∧
    (F.nloptOcc2 x = ({ F with transW := 0, rotW := 0 } : Functor 3 2).nloptOcc2 x ↔ x 0 = F.guess 0 ∧ x 1 = F.guess 1 ∧ SameAngle (x 2) (F.guess 2)) := by
  have e : F.nloptOcc2 x = ({ F with transW := 0, rotW := 0 } : Functor 3 2).nloptOcc2 x +
      1 / 2 * (F.transW * ((x 0 - F.guess 0) ^ 2 + (x 1 - F.guess 1) ^ 2) + F.rotW * F.dif (x 2) (F.guess 2) ^ 2) := by
    unfold Functor.nloptOcc2 Functor.rot2
    simp only
    ring
  have h1 := mul_nonneg ht.le (add_nonneg (sq_nonneg (x 0 - F.guess 0)) (sq_nonneg (x 1 - F.guess 1)))
  have h2 := mul_nonneg hr.le (sq_nonneg (F.dif (x 2) (F.guess 2)))
  rw [e]
  refine ⟨by linarith, ?_, ?_⟩
  · intro h
    have e1 : F.transW * ((x 0 - F.guess 0) ^ 2 + (x 1 - F.guess 1) ^ 2) = 0 := by linarith
    have e2 : F.rotW * F.dif (x 2) (F.guess 2) ^ 2 = 0 := by linarith
    have e1 := (mul_eq_zero.1 e1).resolve_left ht.ne'
    have e2 := (mul_eq_zero.1 e2).resolve_left hr.ne'
    refine ⟨?_, ?_, (hd _ _).1 (pow_eq_zero_iff (by norm_num) |>.1 e2)⟩
    · have : (x 0 - F.guess 0) ^ 2 = 0 := by nlinarith [sq_nonneg (x 0 - F.guess 0), sq_nonneg (x 1 - F.guess 1)]
      have := pow_eq_zero_iff (by norm_num) |>.1 this
      linarith
    · have : (x 1 - F.guess 1) ^ 2 = 0 := by nlinarith [sq_nonneg (x 0 - F.guess 0), sq_nonneg (x 1 - F.guess 1)]
      have := pow_eq_zero_iff (by norm_num) |>.1 this
      linarith
  · rintro ⟨h1, h2, h3⟩
    rw [h1, h2, (hd _ _).2 h3]
    ring

/-- **C65** With alglib in 2D and in 3D with Euler angles, the residuals of the priors are all zero exactly at the initial guess. -/
theorem C65_alglib :
    (∀ (F : Functor 3 2) (x : Fin 3 → ℝ), AngleDif F.dif → F.transW ≠ 0 → F.rotW ≠ 0 →
      ((∀ v ∈ (F.alglib2 x).drop F.points.length, v = 0) ↔ x 0 = F.guess 0 ∧ x 1 = F.guess 1 ∧ SameAngle (x 2) (F.guess 2))) ∧
    (∀ (F : Functor 6 3) (x : Fin 6 → ℝ), AngleDif F.dif → F.transW ≠ 0 → F.rotW ≠ 0 →
      ((∀ v ∈ (F.alglibRPY x).drop F.points.length, v = 0) ↔
        (x 0 = F.guess 0 ∧ x 1 = F.guess 1 ∧ x 2 = F.guess 2) ∧ SameAngle (x 3) (F.guess 3) ∧ SameAngle (x 4) (F.guess 4) ∧ SameAngle (x 5) (F.guess 5))) := by
  have hdrop : ∀ {n d : Nat} (F : Functor n d) (x : Fin n → ℝ) (rest : List ℝ), (F.alglibPoints x ++ rest).drop F.points.length = rest := by
    intro n d F x rest
    have hl : F.points.length = (F.alglibPoints x).length := (List.length_map _).symm
    rw [hl, List.drop_left]
  constructor
  · intro F x hd ht hr
    unfold Functor.alglib2
    rw [hdrop]
    simp only [List.mem_cons, List.not_mem_nil, or_false, forall_eq_or_imp, forall_eq, mul_eq_zero, ht, hr, false_or, abs_eq_zero, sub_eq_zero]
    rw [hd]
  · intro F x hd ht hr
    unfold Functor.alglibRPY
    rw [hdrop]
    simp only [List.mem_cons, List.not_mem_nil, or_false, forall_eq_or_imp, forall_eq, mul_eq_zero, ht, hr, false_or, abs_eq_zero, sub_eq_zero]
    rw [hd, hd, hd]
    tauto

/-- **C65** Every prior is scaled with its own weight: the translation prior with the translation weight, the rotation prior with the rotation weight. -/
theorem C65_weights :
    (∀ (F : Functor 3 2) (x : Fin 3 → ℝ), F.nlopt2 x = ({ F with transW := 0, rotW := 0 } : Functor 3 2).nlopt2 x +
      F.transW * √((x 0 - F.guess 0) ^ 2 + (x 1 - F.guess 1) ^ 2) + F.rotW * |F.dif (x 2) (F.guess 2)|) ∧
    (∀ (F : Functor 3 2) (x : Fin 3 → ℝ), F.nloptOcc2 x = ({ F with transW := 0, rotW := 0 } : Functor 3 2).nloptOcc2 x +
      1 / 2 * (F.transW * ((x 0 - F.guess 0) ^ 2 + (x 1 - F.guess 1) ^ 2) + F.rotW * F.dif (x 2) (F.guess 2) ^ 2)) ∧
    (∀ (F : Functor 6 3) (x : Fin 6 → ℝ), F.nloptRPY x = ({ F with transW := 0, rotW := 0 } : Functor 6 3).nloptRPY x +
      F.transW * √((x 0 - F.guess 0) ^ 2 + (x 1 - F.guess 1) ^ 2 + (x 2 - F.guess 2) ^ 2) +
      F.rotW * √(F.dif (x 3) (F.guess 3) ^ 2 + F.dif (x 4) (F.guess 4) ^ 2 + F.dif (x 5) (F.guess 5) ^ 2)) ∧
    (∀ (F : Functor 6 3) (x : Fin 6 → ℝ), F.nloptOccRPY x = ({ F with transW := 0, rotW := 0 } : Functor 6 3).nloptOccRPY x +
      F.transW * √((x 0 - F.guess 0) ^ 2 + (x 1 - F.guess 1) ^ 2 + (x 2 - F.guess 2) ^ 2) +
      F.rotW * √(F.dif (x 3) (F.guess 3) ^ 2 + F.dif (x 4) (F.guess 4) ^ 2 + F.dif (x 5) (F.guess 5) ^ 2)) ∧
    (∀ (F : Functor 3 2) (x : Fin 3 → ℝ), sumSq ((F.alglib2 x).drop F.points.length) =
      F.transW ^ 2 * ((x 0 - F.guess 0) ^ 2 + (x 1 - F.guess 1) ^ 2) + F.rotW ^ 2 * F.dif (x 2) (F.guess 2) ^ 2) ∧
    (∀ (F : Functor 6 3) (x : Fin 6 → ℝ), sumSq ((F.alglibRPY x).drop F.points.length) =
      F.transW ^ 2 * ((x 0 - F.guess 0) ^ 2 + (x 1 - F.guess 1) ^ 2 + (x 2 - F.guess 2) ^ 2) +
      F.rotW ^ 2 * (F.dif (x 3) (F.guess 3) ^ 2 + F.dif (x 4) (F.guess 4) ^ 2 + F.dif (x 5) (F.guess 5) ^ 2)) := by
  have hdrop : ∀ {n d : Nat} (F : Functor n d) (x : Fin n → ℝ) (rest : List ℝ), (F.alglibPoints x ++ rest).drop F.points.length = rest := by
    intro n d F x rest
    have hl : F.points.length = (F.alglibPoints x).length := (List.length_map _).symm
    rw [hl, List.drop_left]
  refine ⟨?_, ?_, ?_, ?_, ?_, ?_⟩
  · intro F x
    unfold Functor.nlopt2 Functor.weighted Functor.trans2 Functor.rot2 hypot2
    simp only [← pow_two, zero_mul, add_zero]
    rfl
  · intro F x
    unfold Functor.nloptOcc2 Functor.rot2
    simp only
    ring
  · intro F x
    unfold Functor.nloptRPY Functor.weighted Functor.trans3 Functor.rotRPY hypot3
    simp only [← pow_two, zero_mul, add_zero, abs_of_nonneg (Real.sqrt_nonneg _)]
    rfl
  · intro F x
    unfold Functor.nloptOccRPY Functor.weighted Functor.trans3 Functor.rotRPY hypot3
    simp only [← pow_two, zero_mul, add_zero, abs_of_nonneg (Real.sqrt_nonneg _)]
    rfl
  · intro F x
    unfold Functor.alglib2
    rw [hdrop]
    show (F.transW * (x 0 - F.guess 0)) ^ 2 + ((F.transW * (x 1 - F.guess 1)) ^ 2 + ((F.rotW * |F.dif (x 2) (F.guess 2)|) ^ 2 + 0)) = _
    rw [mul_pow F.rotW, sq_abs]
    ring
  · intro F x
    unfold Functor.alglibRPY
    rw [hdrop]
    unfold sumSq
    simp only [List.map_cons, List.map_nil, List.sum_cons, List.sum_nil, mul_pow, sq_abs, add_zero]
    ring

/-- the angle difference of the ceres functors is one -/
theorem angleDif_model : AngleDif angleDifference := by
  intro a b
  exact (C44_angle_difference a b).2.2.2

example : ∃ F : Functor 3 2, AngleDif F.dif ∧ 0 < F.transW ∧ 0 < F.rotW ∧ F.points ≠ [] :=
  ⟨{ onePoint 3 2 (.fin 1) with dif := angleDifference, transW := 1, rotW := 1 }, angleDif_model, one_pos, one_pos, by simp [onePoint]⟩

/-- **C65** is false of nlopt with quaternions: the roll, pitch and yaw of the current rotation are compared with the quaternion components of the initial guess. At an initial guess that is a quarter turn about the vertical axis, whose yaw is `π / 2`, the
prior of that very guess is positive. -/
theorem C65_nlopt_quat_refuted (roll pitch yaw : Quat → ℝ) (hyaw : yaw ⟨√2 / 2, 0, 0, √2 / 2⟩ = π / 2) (F : Functor 7 3) (hd : AngleDif F.dif) (hr : 0 < F.rotW)
    (hg : F.guess = ![0, 0, 0, 0, 0, √2 / 2, √2 / 2]) :
    F.mapW * F.sumCost (pointCost F.tiny) F.guess / (F.points.length : ℝ) < F.nloptQuat roll pitch yaw F.guess := by
  have e6 : F.guess 6 = √2 / 2 := by rw [hg]; rfl
  have e5 : F.guess 5 = √2 / 2 := by rw [hg]; rfl
  have e4 : F.guess 4 = 0 := by rw [hg]; rfl
  have e3 : F.guess 3 = 0 := by rw [hg]; rfl
  have ht : F.trans3 F.guess = 0 := by
    unfold Functor.trans3
    rw [hypot3_eq_zero]
    exact ⟨sub_self _, sub_self _, sub_self _⟩
  have hrot : F.rotQuat roll pitch yaw F.guess ≠ 0 := by
    intro h
    unfold Functor.rotQuat at h
    simp only at h
    rw [hypot3_eq_zero, e3, e4, e5, e6, hyaw] at h
    have h2 : √2 ≤ 2 := by
      rw [sqrt_le_left (by norm_num)]
      norm_num
    have h0 := sqrt_nonneg 2
    have hp := pi_gt_three
    have := eq_of_sameAngle ((hd _ _).1 h.2.2) (by rw [abs_lt]; constructor <;> linarith)
    linarith
  unfold Functor.nloptQuat Functor.weighted
  rw [ht]
  have := mul_pos hr (abs_pos.2 hrot)
  linarith

example : ∃ F : Functor 7 3, AngleDif F.dif ∧ 0 < F.rotW ∧ F.guess = ![0, 0, 0, 0, 0, √2 / 2, √2 / 2] ∧ F.points ≠ [] :=
  ⟨{ onePoint 7 3 (.fin 1) with dif := angleDifference, rotW := 1, guess := ![0, 0, 0, 0, 0, √2 / 2, √2 / 2] }, angleDif_model, one_pos, rfl, by simp [onePoint]⟩

/-- **C65** is false of alglib with quaternions: for all rotations of norm 1, the initial guess included, the squares of the rotation residuals add up to the squared weight. -/
theorem C65_alglib_quat_refuted (F : Functor 7 3) (x : Fin 7 → ℝ) (hg : F.guess 3 ^ 2 + F.guess 4 ^ 2 + F.guess 5 ^ 2 + F.guess 6 ^ 2 = 1) (hx : x 3 ^ 2 + x 4 ^ 2 + x 5 ^ 2 + x 6 ^ 2 = 1) :
    sumSq ((F.alglibQuat x).drop (F.points.length + 3)) = F.rotW ^ 2 := by
  have hl : F.points.length = (F.alglibPoints x).length := (List.length_map _).symm
  unfold Functor.alglibQuat
  rw [hl, List.drop_append, List.drop_of_length_le (by omega), List.nil_append, Nat.add_sub_cancel_left]
  show (F.rotW * |(F.alglibRotDiff x).w|) ^ 2 + ((F.rotW * |(F.alglibRotDiff x).x|) ^ 2 + ((F.rotW * |(F.alglibRotDiff x).y|) ^ 2 + ((F.rotW * |(F.alglibRotDiff x).z|) ^ 2 + 0))) = _
  simp only [mul_pow, sq_abs]
  have e : (F.alglibRotDiff x).w ^ 2 + (F.alglibRotDiff x).x ^ 2 + (F.alglibRotDiff x).y ^ 2 + (F.alglibRotDiff x).z ^ 2 = 1 := by
    show quatNormSq (F.alglibRotDiff x) = 1
    unfold Functor.alglibRotDiff
    rw [quatNormSq_mul]
    unfold quatNormSq
    simp only
    have h1 : F.guess 6 ^ 2 + (-F.guess 3) ^ 2 + (-F.guess 4) ^ 2 + (-F.guess 5) ^ 2 = 1 := by linear_combination hg
    have h2 : x 6 ^ 2 + x 3 ^ 2 + x 4 ^ 2 + x 5 ^ 2 = 1 := by linear_combination hx
    rw [h1, h2, one_mul]
  linear_combination F.rotW ^ 2 * e

/-- **C65** (alglib with quaternions, partial). The residuals of the translation prior are the weighted differences to the initial guess; together with the rotation residuals, for rotations of norm 1, the prior is the weighted squared distance plus a
constant. (Missing: a rotation prior, see `C65_alglib_quat_refuted`.) -/
theorem C65_alglib_quat_partial (F : Functor 7 3) (x : Fin 7 → ℝ) :
    (∀ i : Fin 3, (F.alglibQuat x)[F.points.length + i.1]? = some (F.transW * (x (i.castLE (by omega)) - F.guess (i.castLE (by omega))))) ∧
    (F.guess 3 ^ 2 + F.guess 4 ^ 2 + F.guess 5 ^ 2 + F.guess 6 ^ 2 = 1 → x 3 ^ 2 + x 4 ^ 2 + x 5 ^ 2 + x 6 ^ 2 = 1 →
      sumSq ((F.alglibQuat x).drop F.points.length) = F.transW ^ 2 * ((x 0 - F.guess 0) ^ 2 + (x 1 - F.guess 1) ^ 2 + (x 2 - F.guess 2) ^ 2) + F.rotW ^ 2) := by
  have hl : F.points.length = (F.alglibPoints x).length := (List.length_map _).symm
  constructor
  · intro i
    unfold Functor.alglibQuat
    rw [hl, List.getElem?_append_right (by omega), Nat.add_sub_cancel_left]
    fin_cases i <;> rfl
  · intro hg hx
    rw [← C65_alglib_quat_refuted F x hg hx, ← List.drop_drop]
    unfold Functor.alglibQuat
    rw [hl, List.drop_append, List.drop_of_length_le (le_refl _), List.nil_append, Nat.sub_self, List.drop_zero]
    simp only [sumSq, List.map_cons, List.sum_cons, List.drop_succ_cons, List.drop_zero]
    ring

example : ∃ (F : Functor 7 3), F.guess 3 ^ 2 + F.guess 4 ^ 2 + F.guess 5 ^ 2 + F.guess 6 ^ 2 = 1 :=
  ⟨{ onePoint 7 3 (.fin 1) with guess := ![0, 0, 0, 0, 0, 0, 1] }, by
    show (0 : ℝ) ^ 2 + 0 ^ 2 + 0 ^ 2 + 1 ^ 2 = 1
    norm_num⟩

/-- **C65** (alglib with quaternions, partial). For rotations of norm 1 the first rotation residual is the weighted absolute value of the scalar product of the two quaternions (largest at
the initial guess, which is why C65 fails), and the last three vanish together exactly if the rotation is the one of the initial guess, given by either of its two quaternions. -/
theorem C65_alglib_quat_rotation_partial (F : Functor 7 3) (x : Fin 7 → ℝ) (hw : F.rotW ≠ 0) (hg : F.guess 3 ^ 2 + F.guess 4 ^ 2 + F.guess 5 ^ 2 + F.guess 6 ^ 2 = 1)
    (hx : x 3 ^ 2 + x 4 ^ 2 + x 5 ^ 2 + x 6 ^ 2 = 1) :
    (F.alglibQuat x)[F.points.length + 3]? = some (F.rotW * |x 3 * F.guess 3 + x 4 * F.guess 4 + x 5 * F.guess 5 + x 6 * F.guess 6|) ∧
    ((∀ i < 3, (F.alglibQuat x)[F.points.length + 4 + i]? = some 0) ↔
      (x 3 = F.guess 3 ∧ x 4 = F.guess 4 ∧ x 5 = F.guess 5 ∧ x 6 = F.guess 6) ∨ (x 3 = -F.guess 3 ∧ x 4 = -F.guess 4 ∧ x 5 = -F.guess 5 ∧ x 6 = -F.guess 6)) := by
  have hl : F.points.length = (F.alglibPoints x).length := (List.length_map _).symm
  have hidx : ∀ n, (F.alglibQuat x)[F.points.length + n]? = [F.transW * (x 0 - F.guess 0), F.transW * (x 1 - F.guess 1), F.transW * (x 2 - F.guess 2),
    F.rotW * |(F.alglibRotDiff x).w|, F.rotW * |(F.alglibRotDiff x).x|, F.rotW * |(F.alglibRotDiff x).y|, F.rotW * |(F.alglibRotDiff x).z|][n]? := by
    intro n
    unfold Functor.alglibQuat
    rw [hl, List.getElem?_append_right (by omega), Nat.add_sub_cancel_left]
  constructor
  · rw [hidx]
    show some (F.rotW * |(F.alglibRotDiff x).w|) = _
    have : (F.alglibRotDiff x).w = x 3 * F.guess 3 + x 4 * F.guess 4 + x 5 * F.guess 5 + x 6 * F.guess 6 := by
      unfold Functor.alglibRotDiff Quat.mul; simp only; ring
    rw [this]
  · have key := C46_vector_part_partial F.rotW hw ⟨F.guess 6, F.guess 3, F.guess 4, F.guess 5⟩ ⟨x 6, x 3, x 4, x 5⟩ (by unfold quatNormSq; simp only; linarith) (by unfold quatNormSq; simp only; linarith)
    have e : F.alglibRotDiff x = (Quat.inv ⟨F.guess 6, F.guess 3, F.guess 4, F.guess 5⟩).mul ⟨x 6, x 3, x 4, x 5⟩ := rfl
    have hz : ∀ y : ℝ, some (F.rotW * |y|) = some (0 : ℝ) ↔ F.rotW * y = 0 := by
      intro y; rw [Option.some_inj, mul_eq_zero, mul_eq_zero, abs_eq_zero]
    have h1 : (∀ i < 3, (F.alglibQuat x)[F.points.length + 4 + i]? = some 0) ↔
        (F.rotW * (F.alglibRotDiff x).x = 0 ∧ F.rotW * (F.alglibRotDiff x).y = 0 ∧ F.rotW * (F.alglibRotDiff x).z = 0) := by
      rw [← hz, ← hz, ← hz]
      constructor
      · intro h
        refine ⟨?_, ?_, ?_⟩
        · have := h 0 (by omega); rw [Nat.add_assoc, hidx] at this; exact this
        · have := h 1 (by omega); rw [Nat.add_assoc, hidx] at this; exact this
        · have := h 2 (by omega); rw [Nat.add_assoc, hidx] at this; exact this
      · rintro ⟨h0, h1, h2⟩ i hi
        rw [Nat.add_assoc, hidx]
        match i, hi with
        | 0, _ => exact h0
        | 1, _ => exact h1
        | 2, _ => exact h2
    rw [h1, e]
    refine Iff.trans key ?_
    rw [Quat.ext_iff, Quat.ext_iff]
    unfold quatNeg
    constructor
    · rintro (⟨a, b, c, e⟩ | ⟨a, b, c, e⟩)
      · exact Or.inl ⟨b, c, e, a⟩
      · exact Or.inr ⟨b, c, e, a⟩
    · rintro (⟨b, c, e, a⟩ | ⟨b, c, e, a⟩)
      · exact Or.inl ⟨a, b, c, e⟩
      · exact Or.inr ⟨a, b, c, e⟩

example : ∃ (F : Functor 7 3), F.rotW ≠ 0 ∧ F.guess 3 ^ 2 + F.guess 4 ^ 2 + F.guess 5 ^ 2 + F.guess 6 ^ 2 = 1 ∧ F.points ≠ [] :=
  ⟨{ onePoint 7 3 (.fin 1) with guess := ![0, 0, 0, 0, 0, 0, 1], rotW := 2 }, two_ne_zero, by
    show (0 : ℝ) ^ 2 + 0 ^ 2 + 0 ^ 2 + 1 ^ 2 = 1
    norm_num, by simp [onePoint]⟩

end Ndt
