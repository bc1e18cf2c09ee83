import Verif.Props.CostRounded

/-! Property theorem C126 for alglib, for poses with quaternions and for nlopt on 2D occupancy maps. -/

namespace Ndt

open Real Matching Spec

theorem Spec.Roundings.mul2 {u x y x' y' : ℝ} {k l : Nat} (hu : u ≤ 1) (h0 : 0 ≤ u) (hy : 0 ≤ y) (hy' : 0 ≤ y') (h : Roundings u k x y) (h' : Roundings u l x' y') : Roundings u (k + l) (x * x') (y * y') := by
  have hx := h.nonneg hu hy
  have hx' := h'.nonneg hu hy'
  constructor
  · rw [pow_add, mul_mul_mul_comm]
    exact mul_le_mul h.1 h'.1 (mul_nonneg hy' (pow_nonneg (sub_nonneg.2 hu) _)) hx
  · rw [pow_add, mul_mul_mul_comm]
    exact mul_le_mul h.2 h'.2 hx' (by positivity)

/-! ### Quaternions and 2D occupancy maps -/

theorem rotQuatR_roundings {R : Rounding ℝ} (hu : R.u ≤ 1) (roll pitch yaw : Quat → ℝ) (F : Functor 7 3) (x : Fin 7 → ℝ) : Roundings R.u 3 |F.rotQuatR R roll pitch yaw x| |F.rotQuat roll pitch yaw x| := by
  have h : Roundings R.u 3 (F.rotQuatR R roll pitch yaw x) (F.rotQuat roll pitch yaw x) := hypot3R_roundings hu (k := 0) (Roundings.refl _ _) (Roundings.refl _ _) (Roundings.refl _ _)
  have h0 : 0 ≤ F.rotQuat roll pitch yaw x := sqrt_nonneg _
  rwa [abs_of_nonneg h0, abs_of_nonneg (h.nonneg hu h0)]

/-- **C126** (quaternions). The cost and the score of nlopt in 3D with quaternions; `roll`, `pitch` and `yaw` are the angles that the quaternion class returned. -/
theorem C126_quaternion (R : Rounding ℝ) (roll pitch yaw : Quat → ℝ) (F : Functor 7 3) (x : Fin 7 → ℝ) (hR : CountsTo R F.points.length) (hs : UnitScores F) (hp : F.points ≠ []) (hm : 0 < F.mapW) (ht : 0 ≤ F.transW) (hr : 0 ≤ F.rotW) :
    Roundings R.u (F.points.length + 6) (F.nloptQuatR R roll pitch yaw x) (F.nloptQuat roll pitch yaw x) ∧
    Roundings R.u (F.points.length + 6) (F.nloptOccQuatR R roll pitch yaw x) (F.nloptOccQuat roll pitch yaw x) ∧
    |F.nloptScoreQuatR R roll pitch yaw x (F.nloptQuatR R roll pitch yaw x) - mean (F.points.map fun p => properScore F.tiny (F.sample (F.act x p)))| ≤
      ((1 + R.u) ^ (F.points.length + 10) - 1) * (1 + 2 * (F.transW * √((x 0 - F.guess 0) ^ 2 + (x 1 - F.guess 1) ^ 2 + (x 2 - F.guess 2) ^ 2) + F.rotW * F.rotQuat roll pitch yaw x) / F.mapW) := by
  have hu : R.u ≤ 1 := hR.fine.trans (by norm_num)
  have hlen := List.length_pos_iff.2 hp
  have h1 : R.rnd 1 = 1 := by simpa using hR.nat 1 hlen
  have h0 : R.rnd 0 = 0 := by simpa using hR.nat 0 (Nat.zero_le _)
  have hc : ∀ q, 0 ≤ pointCost F.tiny (F.sample q) := fun q => (pointCost_unit (hs q)).1.1
  have hc' : ∀ q, 0 ≤ pointCostSkip F.tiny (F.sample q) := fun q => (pointCost_unit (hs q)).2.1
  have hcost : Roundings R.u (F.points.length + 6) (F.nloptQuatR R roll pitch yaw x) (F.nloptQuat roll pitch yaw x) :=
    weightedR_roundings hu F hm.le ht hr (N := F.points.length + 4) (sumCost_nonneg F _ x hc) (sqrt_nonneg _) (sumCostR_roundings hu F _ _ x hc fun s => pointCostR_eq h1 _ s)
      (trans3R_roundings hu F x) (rotQuatR_roundings hu roll pitch yaw F x) (by omega) (by omega) (by omega)
  refine ⟨hcost, weightedR_roundings hu F hm.le ht hr (N := F.points.length + 4) (sumCost_nonneg F _ x hc') (sqrt_nonneg _) (sumCostR_roundings hu F _ _ x hc' fun s => pointCostSkipR_eq h0 _ s)
      (trans3R_roundings hu F x) (rotQuatR_roundings hu roll pitch yaw F x) (by omega) (by omega) (by omega), ?_⟩
  have hs1 := sumCost_unit F (pointCost F.tiny) x fun q => (pointCost_unit (hs q)).1
  have hcost' := hcost
  rw [Functor.nloptQuat, Functor.weighted, mul_div_assoc] at hcost'
  have := unweightedR_err hu F hm ht hr hs1.1 hs1.2 (sqrt_nonneg _) hcost' (trans3R_roundings hu F x) (rotQuatR_roundings hu roll pitch yaw F x) (by omega) (by omega)
  rw [mean_of F hp, abs_of_nonneg (show 0 ≤ F.rotQuat roll pitch yaw x from sqrt_nonneg _)] at this
  simpa only [Functor.nloptScoreQuatR, Functor.trans3, hypot3, sq] using this

/-- **C126** (nlopt on 2D occupancy maps). -/
theorem C126_occupancy2 (R : Rounding ℝ) (F : Functor 3 2) (x : Fin 3 → ℝ) (hR : CountsTo R F.points.length) (hs : UnitScores F) (hp : F.points ≠ []) (hm : 0 ≤ F.mapW) (ht : 0 ≤ F.transW) (hr : 0 ≤ F.rotW) :
    Roundings R.u (F.points.length + 10) (F.nloptOcc2R R x) (F.nloptOcc2 x) := by
  have hu : R.u ≤ 1 := hR.fine.trans (by norm_num)
  have h1 : R.rnd 1 = 1 := by simpa using hR.nat 1 (List.length_pos_iff.2 hp)
  have hc : ∀ q, 0 ≤ pointCost F.tiny (F.sample q) := fun q => (pointCost_unit (hs q)).1.1
  have hN : (0 : ℝ) ≤ F.points.length := Nat.cast_nonneg _
  have hm2 : 0 ≤ 1 / 2 * F.mapW := by linarith
  unfold Functor.nloptOcc2R Functor.nloptOcc2
  dsimp only
  have hterm : ∀ p, Roundings R.u 7 (R.rnd (R.rnd (1 / 2 * F.mapW) * R.rnd (R.rnd (pointCostR R F.tiny (F.sample (F.act x p)) / (F.points.length : ℝ)) * R.rnd (pointCostR R F.tiny (F.sample (F.act x p)) / (F.points.length : ℝ)))))
      (1 / 2 * F.mapW * (pointCost F.tiny (F.sample (F.act x p)) / (F.points.length : ℝ) * (pointCost F.tiny (F.sample (F.act x p)) / (F.points.length : ℝ)))) := by
    intro p
    rw [pointCostR_eq h1]
    have c0 := div_nonneg (hc (F.act x p)) hN
    have a := ((((Roundings.refl R.u _).rnd hu (hc (F.act x p))).div hN).rnd hu c0)
    have b := (a.mul2 hu R.nonneg c0 c0 a).rnd hu (mul_nonneg c0 c0)
    exact (((Roundings.refl R.u _).rnd hu hm2).mul2 hu R.nonneg hm2 (mul_nonneg c0 c0) b).rnd hu (mul_nonneg hm2 (mul_nonneg c0 c0))
  have t0 : ∀ p, 0 ≤ 1 / 2 * F.mapW * (pointCost F.tiny (F.sample (F.act x p)) / (F.points.length : ℝ) * (pointCost F.tiny (F.sample (F.act x p)) / (F.points.length : ℝ))) :=
    fun p => mul_nonneg hm2 (mul_self_nonneg _)
  have hsum := foldlR_roundings R hu _ _ 7 F.points 7 0 0 le_rfl le_rfl (by simp [Roundings]) fun p _ => ⟨t0 p, hterm p⟩
  have s0 : 0 ≤ F.points.foldl (fun fi p => fi + 1 / 2 * F.mapW * (pointCost F.tiny (F.sample (F.act x p)) / (F.points.length : ℝ) * (pointCost F.tiny (F.sample (F.act x p)) / (F.points.length : ℝ)))) 0 := by
    rw [foldl_add_eq, zero_add]
    refine List.sum_nonneg fun y hy => ?_
    obtain ⟨p, _, rfl⟩ := List.mem_map.1 hy
    exact t0 p
  have d0 := mul_self_nonneg (x 0 - F.guess 0)
  have d1 := mul_self_nonneg (x 1 - F.guess 1)
  have hd := ((((Roundings.rndSq R hu (x 0 - F.guess 0)).rnd hu d0).add ((Roundings.rndSq R hu (x 1 - F.guess 1)).rnd hu d1)).rnd hu (add_nonneg d0 d1)).mul ht |>.rnd hu (mul_nonneg ht (add_nonneg d0 d1))
  have n2 := mul_nonneg ht (add_nonneg d0 d1)
  have n3 := mul_nonneg hr (mul_self_nonneg (F.rot2 x))
  have hq := (((Roundings.refl R.u _).rnd hu (mul_self_nonneg (F.rot2 x))).mul hr).rnd hu n3
  have e1 := (hsum.add (hd.mono R.nonneg hu n2 (show _ ≤ 7 + F.points.length by omega))).rnd hu (add_nonneg s0 n2)
  have e2 := (e1.add (hq.mono R.nonneg hu n3 (show _ ≤ 7 + F.points.length + 1 by omega))).rnd hu (add_nonneg (add_nonneg s0 n2) n3)
  have e3 := (e2.mul (show (0 : ℝ) ≤ 1 / 2 by norm_num)).rnd hu (mul_nonneg (by norm_num) (add_nonneg (add_nonneg s0 n2) n3))
  exact e3.mono R.nonneg hu (mul_nonneg (by norm_num) (add_nonneg (add_nonneg s0 n2) n3)) (by omega)

/-! ### Alglib -/

theorem relErr_rnd (R : Rounding ℝ) {x y : ℝ} {k : Nat} (h : |x - y| ≤ ((1 + R.u) ^ k - 1) * |y|) : |R.rnd x - y| ≤ ((1 + R.u) ^ (k + 1) - 1) * |y| := by
  have := R.err_step h le_rfl
  rwa [show (1 + R.u) * (1 + ((1 + R.u) ^ k - 1)) - 1 = (1 + R.u) ^ (k + 1) - 1 by ring] at this

theorem relErr_mul {u x y : ℝ} (w : ℝ) {k : Nat} (h : |x - y| ≤ ((1 + u) ^ k - 1) * |y|) : |w * x - w * y| ≤ ((1 + u) ^ k - 1) * |w * y| := by
  rw [← mul_sub, abs_mul, abs_mul, mul_left_comm]
  exact mul_le_mul_of_nonneg_left h (abs_nonneg _)

theorem relErr_mono {u x y : ℝ} (h0 : 0 ≤ u) {k l : Nat} (hkl : k ≤ l) (h : |x - y| ≤ ((1 + u) ^ k - 1) * |y|) : |x - y| ≤ ((1 + u) ^ l - 1) * |y| :=
  h.trans (mul_le_mul_of_nonneg_right (sub_le_sub_right (pow_le_pow_right₀ (by linarith) hkl) 1) (abs_nonneg _))

theorem relErr_refl (u y : ℝ) : |y - y| ≤ ((1 + u) ^ 0 - 1) * |y| := by simp

theorem alglibPointsR_err {n d : Nat} (R : Rounding ℝ) (h1 : R.rnd 1 = 1) (F : Functor n d) (x : Fin n → ℝ) (L : List (Fin d → ℝ)) :
    List.Forall₂ (fun a b => |a - b| ≤ ((1 + R.u) ^ 3 - 1) * |b|) (L.map fun p => R.rnd (R.rnd (F.mapW * pointCostR R F.tiny (F.sample (F.act x p))) / (F.points.length : ℝ)))
      (L.map fun p => F.mapW * pointCost F.tiny (F.sample (F.act x p)) / (F.points.length : ℝ)) := by
  rw [List.forall₂_map_left_iff, List.forall₂_map_right_iff, List.forall₂_same]
  intro p _
  rw [pointCostR_eq h1, div_eq_inv_mul, div_eq_inv_mul]
  exact relErr_rnd R (relErr_mul _ (relErr_rnd R (relErr_mul _ (relErr_rnd R (relErr_refl _ _)))))

/-- **C126** (alglib, residuals). Every residual has a relative error of at most three roundings, whatever the weights and the scores: in 2D and in 3D with Euler angles. -/
theorem C126_alglib_residuals (R : Rounding ℝ) (h1 : R.rnd 1 = 1) :
    (∀ (F : Functor 3 2) (x : Fin 3 → ℝ), List.Forall₂ (fun a b => |a - b| ≤ ((1 + R.u) ^ 3 - 1) * |b|) (F.alglib2R R x) (F.alglib2 x)) ∧
    (∀ (F : Functor 6 3) (x : Fin 6 → ℝ), List.Forall₂ (fun a b => |a - b| ≤ ((1 + R.u) ^ 3 - 1) * |b|) (F.alglibRPYR R x) (F.alglibRPY x)) := by
  have ht : ∀ w y, |R.rnd (w * R.rnd y) - w * y| ≤ ((1 + R.u) ^ 3 - 1) * |w * y| := fun w y => relErr_mono R.nonneg (by norm_num) (relErr_rnd R (relErr_mul w (relErr_rnd R (relErr_refl R.u y))))
  have hr : ∀ y, |R.rnd y - y| ≤ ((1 + R.u) ^ 3 - 1) * |y| := fun y => relErr_mono R.nonneg (by norm_num) (relErr_rnd R (relErr_refl R.u y))
  constructor
  · intro F x
    exact List.rel_append (alglibPointsR_err R h1 F x F.points) (.cons (ht _ _) (.cons (ht _ _) (.cons (hr _) .nil)))
  · intro F x
    exact List.rel_append (alglibPointsR_err R h1 F x F.points) (.cons (ht _ _) (.cons (ht _ _) (.cons (ht _ _) (.cons (hr _) (.cons (hr _) (.cons (hr _) .nil))))))

theorem foldlR_err {α : Type} (R : Rounding ℝ) (f g : α → ℝ) (C : ℝ) (hC : 0 ≤ C) (i : Nat) : ∀ (l : List α) (k : Nat) (a b B : ℝ), i ≤ k → |a - b| ≤ ((1 + R.u) ^ k - 1) * B → |b| ≤ B →
    (∀ p ∈ l, |f p - g p| ≤ ((1 + R.u) ^ i - 1) * C ∧ |g p| ≤ C) →
    |l.foldl (fun s p => R.rnd (s + f p)) a - l.foldl (fun s p => s + g p) b| ≤ ((1 + R.u) ^ (k + l.length) - 1) * (B + l.length * C)
  | [], _, _, _, _, _, h, _, _ => by simpa using h
  | p :: l, k, a, b, B, hk, h, hb, hl => by
    have hp := hl p (List.mem_cons_self ..)
    have hp1 := hp.1.trans (mul_le_mul_of_nonneg_right (sub_le_sub_right (pow_le_pow_right₀ (by linarith [R.nonneg] : (1 : ℝ) ≤ 1 + R.u) hk) 1) hC)
    have s1 : |(a + f p) - (b + g p)| ≤ ((1 + R.u) ^ k - 1) * (B + C) := by
      rw [add_sub_add_comm, mul_add]
      exact (abs_add_le _ _).trans (add_le_add h hp1)
    have s2 : |b + g p| ≤ B + C := (abs_add_le _ _).trans (add_le_add hb hp.2)
    have s3 := R.err_step s1 s2
    rw [show (1 + R.u) * (1 + ((1 + R.u) ^ k - 1)) - 1 = (1 + R.u) ^ (k + 1) - 1 by ring] at s3
    have := foldlR_err R f g C hC i l (k + 1) _ _ _ (by omega) s3 s2 fun p hp => hl p (List.mem_cons_of_mem _ hp)
    rw [List.foldl_cons, List.foldl_cons, List.length_cons]
    refine this.trans (le_of_eq ?_)
    push_cast
    rw [show k + 1 + l.length = k + (l.length + 1) by omega]
    ring

theorem alglibScoreR_err {n d : Nat} (R : Rounding ℝ) (F : Functor n d) (x : Fin n → ℝ) (rest restR : List ℝ) (hR : CountsTo R F.points.length) (hs : UnitScores F) (hp : F.points ≠ []) (hm : 0 < F.mapW) :
    |F.alglibScoreR R (F.alglibPointsR R x ++ restR) - mean (F.points.map fun p => properScore F.tiny (F.sample (F.act x p)))| ≤ 2 * ((1 + R.u) ^ (F.points.length + 6) - 1) := by
  have hu : R.u ≤ 1 := hR.fine.trans (by norm_num)
  have hlen := List.length_pos_iff.2 hp
  have h1 : R.rnd 1 = 1 := by simpa using hR.nat 1 hlen
  have hN : (0 : ℝ) < F.points.length := by exact_mod_cast hlen
  rw [← alglibScore_eq F hm.ne' hp x rest]
  unfold Functor.alglibScoreR Functor.alglibScore
  dsimp only
  have hE : ∀ {i j : Nat}, i ≤ j → (1 + R.u) ^ i - 1 ≤ (1 + R.u) ^ j - 1 := fun h => sub_le_sub_right (pow_le_pow_right₀ (by linarith [R.nonneg]) h) 1
  have hE0 : ∀ i : Nat, 0 ≤ (1 + R.u) ^ i - 1 := fun i => sub_nonneg.2 (one_le_pow₀ (by linarith [R.nonneg]))
  have iN : 0 ≤ 1 / (F.points.length : ℝ) := by positivity
  have im : 0 ≤ 1 / F.mapW := by positivity
  have key := foldlR_err R (fun i => R.rnd (R.rnd (1 / (F.points.length : ℝ)) - R.rnd ((F.alglibPointsR R x ++ restR).getD i 0 * R.rnd (1 / F.mapW))))
    (fun i => 1 / (F.points.length : ℝ) - (F.alglibPoints x ++ rest).getD i 0 * (1 / F.mapW)) (2 / (F.points.length : ℝ)) (by positivity) 6 (List.range F.points.length) 6 0 0 0 le_rfl (by simp) (by simp) ?_
  · rw [List.length_range, zero_add, mul_div_cancel₀ _ hN.ne'] at key
    refine key.trans (le_of_eq ?_)
    rw [add_comm 6]
    ring
  · intro i hi
    have hi' : i < F.points.length := List.mem_range.1 hi
    have gl : (F.alglibPoints x).length = F.points.length := List.length_map _
    have glR : (F.alglibPointsR R x).length = F.points.length := List.length_map _
    rw [List.getD_append _ _ _ _ (by simpa only [gl, glR] using hi'), List.getD_append _ _ _ _ (by simpa only [gl, glR] using hi'), List.getD_eq_getElem _ _ (by simpa only [gl, glR] using hi'), List.getD_eq_getElem _ _ (by simpa only [gl, glR] using hi')]
    unfold Functor.alglibPoints Functor.alglibPointsR
    rw [List.getElem_map, List.getElem_map, pointCostR_eq h1]
    set c := pointCost F.tiny (F.sample (F.act x F.points[i])) with hc
    obtain ⟨c0, c1⟩ : 0 ≤ c ∧ c ≤ 1 := (pointCost_unit (hs _)).1
    have m0 : 0 ≤ F.mapW * c := mul_nonneg hm.le c0
    have q0 : 0 ≤ F.mapW * c / (F.points.length : ℝ) := div_nonneg m0 hN.le
    have ec : F.mapW * c / (F.points.length : ℝ) * (1 / F.mapW) = c / F.points.length := by field_simp
    have a := (((((Roundings.refl R.u c).rnd hu c0).mul hm.le).rnd hu m0).div hN.le).rnd hu q0
    have b := (a.mul2 hu R.nonneg q0 im ((Roundings.refl R.u _).rnd hu im)).rnd hu (mul_nonneg q0 im)
    have e1 := b.err R.nonneg hu (mul_nonneg q0 im)
    have e2 := (((Roundings.refl R.u (1 / (F.points.length : ℝ))).rnd hu iN)).err R.nonneg hu iN
    rw [ec] at e1 ⊢
    have cN : c / (F.points.length : ℝ) ≤ 1 / F.points.length := div_le_div_of_nonneg_right c1 hN.le
    have cN0 : 0 ≤ c / (F.points.length : ℝ) := div_nonneg c0 hN.le
    have eg : |1 / (F.points.length : ℝ) - c / F.points.length| ≤ 2 / F.points.length := by
      rw [abs_of_nonneg (by linarith), show (2 : ℝ) / F.points.length = 1 / F.points.length + 1 / F.points.length by ring]
      linarith
    refine ⟨?_, eg⟩
    have st := R.err_step (x := R.rnd (1 / (F.points.length : ℝ)) - R.rnd (R.rnd (R.rnd (F.mapW * R.rnd c) / (F.points.length : ℝ)) * R.rnd (1 / F.mapW))) (a := (1 + R.u) ^ 5 - 1) (A := 2 / F.points.length) ?_ eg
    · rwa [show (1 + R.u) * (1 + ((1 + R.u) ^ 5 - 1)) - 1 = (1 + R.u) ^ 6 - 1 by ring] at st
    · rw [show ∀ p q r s : ℝ, p - q - (r - s) = (p - r) - (q - s) by intros; ring]
      refine (abs_sub _ _).trans ?_
      have f1 := e2.trans (mul_le_mul_of_nonneg_right (hE (by norm_num : 0 + 1 ≤ 5)) iN)
      have f2 := e1.trans (mul_le_mul_of_nonneg_left cN (hE0 _))
      refine (add_le_add f1 f2).trans (le_of_eq ?_)
      ring

/-- **C126** (alglib, scores). The score that is computed from the residuals is the mean score of the moved points up to twice the roundings of a sum over the points: in 2D and in 3D with Euler angles, NDT and occupancy maps. -/
theorem C126_alglib_score (R : Rounding ℝ) :
    (∀ (F : Functor 3 2) (x : Fin 3 → ℝ), CountsTo R F.points.length → UnitScores F → F.points ≠ [] → 0 < F.mapW →
      |F.alglibScoreR R (F.alglib2R R x) - mean (F.points.map fun p => properScore F.tiny (F.sample (F.act x p)))| ≤ 2 * ((1 + R.u) ^ (F.points.length + 6) - 1)) ∧
    (∀ (F : Functor 6 3) (x : Fin 6 → ℝ), CountsTo R F.points.length → UnitScores F → F.points ≠ [] → 0 < F.mapW →
      |F.alglibScoreR R (F.alglibRPYR R x) - mean (F.points.map fun p => properScore F.tiny (F.sample (F.act x p)))| ≤ 2 * ((1 + R.u) ^ (F.points.length + 6) - 1)) :=
  ⟨fun F x hR hs hp hm => alglibScoreR_err R F x [] _ hR hs hp hm, fun F x hR hs hp hm => alglibScoreR_err R F x [] _ hR hs hp hm⟩

/-! ### Ceres -/

theorem Spec.Roundings.absRnd {R : Rounding ℝ} {x y : ℝ} {k : Nat} (hu : R.u ≤ 1) (h : Roundings R.u k |x| |y|) : Roundings R.u (k + 1) |R.rnd x| |y| := by
  have hs := abs_le.1 ((abs_abs_sub_abs_le_abs_sub (R.rnd x) x).trans (R.err x))
  constructor
  · rw [pow_succ, ← mul_assoc]
    have := mul_le_mul_of_nonneg_right h.1 (sub_nonneg.2 hu)
    linarith [hs.1]
  · rw [pow_succ, ← mul_assoc]
    have := mul_le_mul_of_nonneg_right h.2 (by linarith [R.nonneg] : 0 ≤ 1 + R.u)
    linarith [hs.2]

theorem Spec.Roundings.inv {u x y : ℝ} (h0 : 0 ≤ u) (hu : u ≤ 1 / 64) (hy : 0 < y) (h : Roundings u 1 x y) : Roundings u 2 x⁻¹ y⁻¹ := by
  unfold Roundings at h ⊢
  rw [pow_one, pow_one] at h
  have hx : 0 < x := lt_of_lt_of_le (mul_pos hy (by linarith)) h.1
  constructor
  · rw [← div_eq_inv_mul, ← one_div, div_le_div_iff₀ hy hx, one_mul]
    calc (1 - u) ^ 2 * x ≤ (1 - u) ^ 2 * (y * (1 + u)) := mul_le_mul_of_nonneg_left h.2 (sq_nonneg _)
      _ = y * ((1 - u) * (1 - u ^ 2)) := by ring
      _ ≤ y * 1 := mul_le_mul_of_nonneg_left (by nlinarith [sq_nonneg u]) hy.le
      _ = y := mul_one y
  · rw [← div_eq_inv_mul, ← one_div, div_le_div_iff₀ hx hy, one_mul]
    calc y = y * 1 := (mul_one y).symm
      _ ≤ y * ((1 - u) * (1 + u) ^ 2) := mul_le_mul_of_nonneg_left (by nlinarith [sq_nonneg u, mul_nonneg h0 (sq_nonneg u), mul_nonneg h0 h0]) hy.le
      _ = (1 + u) ^ 2 * (y * (1 - u)) := by ring
      _ ≤ (1 + u) ^ 2 * x := mul_le_mul_of_nonneg_left h.1 (sq_nonneg _)

/-- **C126** (ceres). The sum of the squares of the residuals of a scan, as ceres gets them, is the squared weight times the mean of the squared values, up to eight roundings, however many points the scan has; and every residual is exact up to four
roundings. -/
theorem C126_ceres (R : Rounding ℝ) (hR : Arithmetic R) {d : Nat} (weight : ℝ) (points : List (Fin d → ℝ)) (v : (Fin d → ℝ) → ℝ) (hp : points ≠ []) :
    Roundings R.u 8 ((createdResidualsR R weight points v).map (· ^ 2)).sum (weight ^ 2 * mean (points.map fun p => v p ^ 2)) ∧
    List.Forall₂ (fun r p => Roundings R.u 4 |r| (|weight| / √(points.length : ℝ) * |v p|)) (createdResidualsR R weight points v) points := by
  have hu : R.u ≤ 1 := hR.fine.trans (by norm_num)
  have hN : (0 : ℝ) < points.length := by exact_mod_cast List.length_pos_iff.2 hp
  have hq : 0 < √(points.length : ℝ) := sqrt_pos.2 hN
  have hone : ∀ p, Roundings R.u 4 |R.rnd (R.rnd (weight / R.rnd √(points.length : ℝ)) * v p)| (|weight| / √(points.length : ℝ) * |v p|) := by
    intro p
    have a := (((Roundings.refl R.u √(points.length : ℝ)).rnd hu hq.le).inv R.nonneg hR.fine hq).mul (abs_nonneg weight)
    rw [← div_eq_mul_inv, ← div_eq_mul_inv] at a
    have hr : 0 ≤ R.rnd √(points.length : ℝ) := ((Roundings.refl R.u √(points.length : ℝ)).rnd hu hq.le).nonneg hu hq.le
    have b : Roundings R.u 2 |weight / R.rnd √(points.length : ℝ)| |weight / √(points.length : ℝ)| := by
      rwa [abs_div, abs_div, abs_of_nonneg hr, abs_of_pos hq]
    have c := (b.absRnd hu).mul (abs_nonneg (v p))
    have e : Roundings R.u 3 |R.rnd (weight / R.rnd √(points.length : ℝ)) * v p| |weight / √(points.length : ℝ) * v p| := by
      rwa [abs_mul, abs_mul, mul_comm, mul_comm |weight / √(points.length : ℝ)|]
    have f := e.absRnd hu
    rwa [abs_mul, abs_div, abs_of_pos hq] at f
  constructor
  · have hsq : ∀ p, Roundings R.u 8 (R.rnd (R.rnd (weight / R.rnd √(points.length : ℝ)) * v p) ^ 2) (weight ^ 2 / (points.length : ℝ) * v p ^ 2) := by
      intro p
      have h0 : 0 ≤ |weight| / √(points.length : ℝ) * |v p| := by positivity
      have := (hone p).mul2 hu R.nonneg h0 h0 (hone p)
      rw [abs_mul_abs_self, ← sq, ← sq, mul_pow, div_pow, sq_abs, sq_abs, sq_sqrt hN.le] at this
      exact this
    have key : ∀ l : List (Fin d → ℝ), Roundings R.u 8 (l.map fun p => R.rnd (R.rnd (weight / R.rnd √(points.length : ℝ)) * v p) ^ 2).sum (l.map fun p => weight ^ 2 / (points.length : ℝ) * v p ^ 2).sum := by
      intro l
      induction l with
      | nil => simp [Roundings]
      | cons p l ih =>
        rw [List.map_cons, List.map_cons, List.sum_cons, List.sum_cons]
        exact (hsq p).add ih
    have := key points
    rw [List.sum_map_mul_left] at this
    unfold createdResidualsR mean
    rw [List.map_map, List.length_map]
    rwa [show weight ^ 2 * ((points.map fun p => v p ^ 2).sum / (points.length : ℝ)) = weight ^ 2 / (points.length : ℝ) * (points.map fun p => v p ^ 2).sum by ring]
  · unfold createdResidualsR
    rw [List.forall₂_map_left_iff, List.forall₂_same]
    exact fun p _ => hone p

/-- a scan of three points with the score 1/3, in double -/
example : ∃ (F : Functor 3 2), CountsTo (ieee ℝ 53 (by norm_num)) F.points.length ∧ UnitScores F ∧ F.points.length = 3 ∧ 0 < F.mapW ∧ mean (F.points.map fun p => properScore F.tiny (F.sample (F.act 0 p))) = 1 / 3 := by
  refine ⟨{ onePoint 3 2 (.fin (1 / 3)) with points := [0, 0, 0] }, double_counts _ (by norm_num), ?_, rfl, by simp [onePoint], ?_⟩
  · intro q s h
    rw [← Fl.fin.inj h]
    norm_num
  · simp only [onePoint, List.map_cons, List.map_nil, mean]
    norm_num [properScore, abs_of_pos]

end Ndt
