import Verif.Props.MatchLocal
import Verif.Props.SamplingRounded

/-! Property theorem C132: small differences between maps make small differences between the costs. -/

namespace Ndt

open Real Matching Spec St

/-- the scores that the two maps give to the points of the scan at the pose `x` are between 0 and 1 and differ by at most `ε` -/
def Spec.CloseScores {n d : Nat} (ε : ℝ) (F : Functor n d) (s' : (Fin d → ℝ) → Fl ℝ) (x : Fin n → ℝ) : Prop :=
  ∀ p ∈ F.points, ∃ a b, F.sample (F.act x p) = .fin a ∧ s' (F.act x p) = .fin b ∧ (0 ≤ a ∧ a ≤ 1) ∧ (0 ≤ b ∧ b ≤ 1) ∧ |a - b| ≤ ε

/-- Among the poses `P`, the costs differ by at most `δ`, and a best pose of one is, for the other, at most `2 δ` worse than any pose. -/
def Spec.CloseCosts {X : Type} (P : Set X) (δ : ℝ) (f f' : X → ℝ) : Prop :=
  (∀ x ∈ P, |f x - f' x| ≤ δ) ∧ ∀ x ∈ P, ((∀ y ∈ P, f x ≤ f y) → ∀ y ∈ P, f' x ≤ f' y + 2 * δ) ∧ ((∀ y ∈ P, f' x ≤ f' y) → ∀ y ∈ P, f x ≤ f y + 2 * δ)

theorem closeCosts_of {X : Type} {P : Set X} {δ : ℝ} {f f' : X → ℝ} (h : ∀ x ∈ P, |f x - f' x| ≤ δ) : CloseCosts P δ f f' := by
  refine ⟨h, fun x hP => ⟨fun hx y hy => ?_, fun hx y hy => ?_⟩⟩ <;>
  · have h1 := abs_le.1 (h x hP)
    have h2 := abs_le.1 (h y hy)
    linarith [hx y hy, h1.1, h1.2, h2.1, h2.2]

theorem pointCost_close {tiny a b ε : ℝ} (h0 : 0 ≤ tiny) (hε : 0 ≤ ε) (ha : 0 ≤ a ∧ a ≤ 1) (hb : 0 ≤ b ∧ b ≤ 1) (h : |a - b| ≤ ε) : |pointCost tiny (.fin a) - pointCost tiny (.fin b)| ≤ ε + tiny := by
  obtain ⟨h1, h2⟩ := abs_le.1 h
  unfold pointCost Fl.isNormal value
  simp only [decide_eq_true_eq, abs_of_nonneg ha.1, abs_of_nonneg hb.1]
  split <;> split <;> rw [abs_le] <;> constructor <;> linarith

theorem sum_close {α : Type} (f f' : α → ℝ) (δ : ℝ) : ∀ l : List α, (∀ p ∈ l, |f p - f' p| ≤ δ) → |(l.map f).sum - (l.map f').sum| ≤ l.length * δ
  | [], _ => by simp
  | p :: l, h => by
    have h1 := h p List.mem_cons_self
    have h2 := sum_close f f' δ l fun q hq => h q (List.mem_cons_of_mem _ hq)
    rw [List.map_cons, List.map_cons, List.sum_cons, List.sum_cons, List.length_cons, Nat.cast_add, Nat.cast_one]
    have := abs_add_le (f p - f' p) ((l.map f).sum - (l.map f').sum)
    rw [show f p + (l.map f).sum - (f' p + (l.map f').sum) = f p - f' p + ((l.map f).sum - (l.map f').sum) by ring]
    linarith

theorem mean_close {α : Type} (f f' : α → ℝ) (δ : ℝ) (hδ : 0 ≤ δ) (l : List α) (h : ∀ p ∈ l, |f p - f' p| ≤ δ) : |(l.map f).sum / (l.length : ℝ) - (l.map f').sum / (l.length : ℝ)| ≤ δ := by
  rcases Nat.eq_zero_or_pos l.length with h0 | h0
  · rw [List.length_eq_zero_iff.1 h0]
    simpa using hδ
  have hn : (0 : ℝ) < (l.length : ℝ) := Nat.cast_pos.2 h0
  rw [← sub_div, abs_div, abs_of_pos hn, div_le_iff₀ hn, mul_comm]
  exact sum_close f f' δ _ h

theorem properScore_close {tiny a b ε : ℝ} (h0 : 0 ≤ tiny) (hε : 0 ≤ ε) (ha : 0 ≤ a ∧ a ≤ 1) (hb : 0 ≤ b ∧ b ≤ 1) (h : |a - b| ≤ ε) : |properScore tiny (.fin a) - properScore tiny (.fin b)| ≤ ε + tiny := by
  obtain ⟨h1, h2⟩ := abs_le.1 h
  unfold properScore
  simp only [abs_of_nonneg ha.1, abs_of_nonneg hb.1]
  split <;> split <;> rw [abs_le] <;> constructor <;> linarith

theorem weighted_close {n d : Nat} (F : Functor n d) (s' : (Fin d → ℝ) → Fl ℝ) (ε : ℝ) (x : Fin n → ℝ) (h0 : 0 ≤ F.tiny) (hε : 0 ≤ ε) (h : CloseScores ε F s' x) (t r : ℝ) :
    |F.weighted (F.sumCost (pointCost F.tiny) x) t r - F.weighted ((otherMap F s').sumCost (pointCost F.tiny) x) t r| ≤ |F.mapW| * (ε + F.tiny) := by
  have h1 := mean_close (fun p => pointCost F.tiny (F.sample (F.act x p))) (fun p => pointCost F.tiny (s' (F.act x p))) (ε + F.tiny) (by linarith) F.points fun p hp => by
    obtain ⟨a, b, ea, eb, ha, hb, hab⟩ := h p hp
    rw [ea, eb]
    exact pointCost_close h0 hε ha hb hab
  unfold Functor.weighted Functor.sumCost
  rw [foldl_add_eq, foldl_add_eq, zero_add, zero_add, mul_div_assoc, mul_div_assoc]
  refine le_trans (le_of_eq ?_) (mul_le_mul_of_nonneg_left h1 (abs_nonneg F.mapW))
  rw [← abs_mul]
  congr 1
  show F.mapW * _ + F.transW * t + F.rotW * |r| - (F.mapW * _ + F.transW * t + F.rotW * |r|) = _
  rw [mul_sub, add_sub_add_right_eq_sub, add_sub_add_right_eq_sub]
  rfl

/-- **C132** (nlopt on NDT maps). If the scores of two maps differ by at most `ε`, the costs differ by at most the map weight times `ε` plus the smallest normal number (below which scores are ignored), and a best pose in one map is nearly best in the other. -/
theorem C132_nlopt :
    (∀ (F : Functor 3 2) (s' : (Fin 2 → ℝ) → Fl ℝ) (P : Set (Fin 3 → ℝ)) (ε : ℝ), 0 ≤ F.tiny → 0 ≤ ε → (∀ x ∈ P, CloseScores ε F s' x) → CloseCosts P (|F.mapW| * (ε + F.tiny)) F.nlopt2 (otherMap F s').nlopt2) ∧
    (∀ (F : Functor 6 3) (s' : (Fin 3 → ℝ) → Fl ℝ) (P : Set (Fin 6 → ℝ)) (ε : ℝ), 0 ≤ F.tiny → 0 ≤ ε → (∀ x ∈ P, CloseScores ε F s' x) → CloseCosts P (|F.mapW| * (ε + F.tiny)) F.nloptRPY (otherMap F s').nloptRPY) ∧
    (∀ (roll pitch yaw : Quat → ℝ) (F : Functor 7 3) (s' : (Fin 3 → ℝ) → Fl ℝ) (P : Set (Fin 7 → ℝ)) (ε : ℝ), 0 ≤ F.tiny → 0 ≤ ε → (∀ x ∈ P, CloseScores ε F s' x) →
      CloseCosts P (|F.mapW| * (ε + F.tiny)) (F.nloptQuat roll pitch yaw) ((otherMap F s').nloptQuat roll pitch yaw)) :=
  ⟨fun F s' P ε h0 hε h => closeCosts_of fun x hx => weighted_close F s' ε x h0 hε (h x hx) _ _, fun F s' P ε h0 hε h => closeCosts_of fun x hx => weighted_close F s' ε x h0 hε (h x hx) _ _,
    fun _ _ _ F s' P ε h0 hε h => closeCosts_of fun x hx => weighted_close F s' ε x h0 hε (h x hx) _ _⟩

/-- **C132** (scores). The reported scores differ by at most `ε` plus the smallest normal number: nlopt on NDT maps and alglib. -/
theorem C132_score :
    (∀ (F : Functor 3 2) (s' : (Fin 2 → ℝ) → Fl ℝ) (ε : ℝ) (x : Fin 3 → ℝ), F.mapW ≠ 0 → F.points ≠ [] → 0 ≤ F.tiny → 0 ≤ ε → CloseScores ε F s' x →
      |F.nloptScore2 x (F.nlopt2 x) - (otherMap F s').nloptScore2 x ((otherMap F s').nlopt2 x)| ≤ ε + F.tiny ∧ |F.alglibScore (F.alglib2 x) - (otherMap F s').alglibScore ((otherMap F s').alglib2 x)| ≤ ε + F.tiny) ∧
    (∀ (F : Functor 6 3) (s' : (Fin 3 → ℝ) → Fl ℝ) (ε : ℝ) (x : Fin 6 → ℝ), F.mapW ≠ 0 → F.points ≠ [] → 0 ≤ F.tiny → 0 ≤ ε → CloseScores ε F s' x →
      |F.nloptScoreRPY x (F.nloptRPY x) - (otherMap F s').nloptScoreRPY x ((otherMap F s').nloptRPY x)| ≤ ε + F.tiny ∧ |F.alglibScore (F.alglibRPY x) - (otherMap F s').alglibScore ((otherMap F s').alglibRPY x)| ≤ ε + F.tiny) ∧
    (∀ (roll pitch yaw : Quat → ℝ) (F : Functor 7 3) (s' : (Fin 3 → ℝ) → Fl ℝ) (ε : ℝ) (x : Fin 7 → ℝ), F.mapW ≠ 0 → F.points ≠ [] → 0 ≤ F.tiny → 0 ≤ ε → CloseScores ε F s' x →
      |F.nloptScoreQuat roll pitch yaw x (F.nloptQuat roll pitch yaw x) - (otherMap F s').nloptScoreQuat roll pitch yaw x ((otherMap F s').nloptQuat roll pitch yaw x)| ≤ ε + F.tiny ∧
      |F.alglibScore (F.alglibQuat x) - (otherMap F s').alglibScore ((otherMap F s').alglibQuat x)| ≤ ε + F.tiny) := by
  have key : ∀ {n d : Nat} (F : Functor n d) (s' : (Fin d → ℝ) → Fl ℝ) (ε : ℝ) (x : Fin n → ℝ), 0 ≤ F.tiny → 0 ≤ ε → CloseScores ε F s' x →
      |mean (F.points.map fun p => properScore F.tiny (F.sample (F.act x p))) - mean ((otherMap F s').points.map fun p => properScore (otherMap F s').tiny ((otherMap F s').sample ((otherMap F s').act x p)))| ≤ ε + F.tiny := by
    intro n d F s' ε x h0 hε h
    have := mean_close (fun p => properScore F.tiny (F.sample (F.act x p))) (fun p => properScore F.tiny (s' (F.act x p))) (ε + F.tiny) (by linarith) F.points fun p hp => by
      obtain ⟨a, b, ea, eb, ha, hb, hab⟩ := h p hp
      rw [ea, eb]
      exact properScore_close h0 hε ha hb hab
    unfold mean
    rw [List.length_map, List.length_map]
    exact this
  obtain ⟨n1, n2, n3⟩ := C48_nlopt
  obtain ⟨a1, a2, a3⟩ := C48_alglib
  refine ⟨fun F s' ε x hw hp h0 hε h => ⟨?_, ?_⟩, fun F s' ε x hw hp h0 hε h => ⟨?_, ?_⟩, fun roll pitch yaw F s' ε x hw hp h0 hε h => ⟨?_, ?_⟩⟩
  · rw [n1 F x hw hp, n1 (otherMap F s') x hw hp]; exact key F s' ε x h0 hε h
  · rw [a1 F x hw hp, a1 (otherMap F s') x hw hp]; exact key F s' ε x h0 hε h
  · rw [n2 F x hw hp, n2 (otherMap F s') x hw hp]; exact key F s' ε x h0 hε h
  · rw [a2 F x hw hp, a2 (otherMap F s') x hw hp]; exact key F s' ε x h0 hε h
  · rw [n3 _ _ _ F x hw hp, n3 _ _ _ (otherMap F s') x hw hp]; exact key F s' ε x h0 hε h
  · rw [a3 F x hw hp, a3 (otherMap F s') x hw hp]; exact key F s' ε x h0 hε h

theorem sq_close {a b δ : ℝ} (ha : 0 ≤ a ∧ a ≤ 1) (hb : 0 ≤ b ∧ b ≤ 1) (h : |a - b| ≤ δ) : |a ^ 2 - b ^ 2| ≤ 2 * δ := by
  rw [sq_sub_sq, abs_mul]
  have h1 : |a + b| ≤ 2 := by rw [abs_of_nonneg (by linarith [ha.1, hb.1])]; linarith [ha.2, hb.2]
  exact mul_le_mul h1 h (abs_nonneg _) (by norm_num)

theorem squares_close {n d : Nat} (F : Functor n d) (s' : (Fin d → ℝ) → Fl ℝ) (ε : ℝ) (x : Fin n → ℝ) (h0 : 0 ≤ F.tiny) (hε : 0 ≤ ε) (h : CloseScores ε F s' x) (w : ℝ) (hw : 0 ≤ w) :
    |(F.points.map fun p => w * (pointCost F.tiny (F.sample (F.act x p)) / (F.points.length : ℝ)) ^ 2).sum - (F.points.map fun p => w * (pointCost F.tiny (s' (F.act x p)) / (F.points.length : ℝ)) ^ 2).sum| ≤
      w * (2 * (ε + F.tiny)) / (F.points.length : ℝ) := by
  rcases Nat.eq_zero_or_pos F.points.length with hz | hz
  · rw [List.length_eq_zero_iff.1 hz]
    simp
  have hn : (0 : ℝ) < (F.points.length : ℝ) := Nat.cast_pos.2 hz
  refine le_trans (sum_close _ _ (w * (2 * (ε + F.tiny)) / (F.points.length : ℝ) ^ 2) F.points fun p hp => ?_) (le_of_eq ?_)
  · obtain ⟨a, b, ea, eb, ha, hb, hab⟩ := h p hp
    rw [ea, eb, div_pow, div_pow, ← mul_sub, ← sub_div, ← mul_div_assoc, abs_div, abs_mul, abs_of_nonneg hw, abs_of_pos (pow_pos hn 2)]
    refine div_le_div_of_nonneg_right (mul_le_mul_of_nonneg_left ?_ hw) (pow_pos hn 2).le
    exact sq_close (pointCost_unit fun s hs => by obtain rfl := Fl.fin.inj hs; exact ha).1 (pointCost_unit fun s hs => by obtain rfl := Fl.fin.inj hs; exact hb).1 (pointCost_close h0 hε ha hb hab)
  · field_simp

/-- **C132** (nlopt on 2D occupancy maps) -/
theorem C132_occupancy2 (F : Functor 3 2) (s' : (Fin 2 → ℝ) → Fl ℝ) (P : Set (Fin 3 → ℝ)) (ε : ℝ) (hm : 0 ≤ F.mapW) (h0 : 0 ≤ F.tiny) (hε : 0 ≤ ε) (h : ∀ x ∈ P, CloseScores ε F s' x) :
    CloseCosts P (F.mapW * (ε + F.tiny) / (2 * (F.points.length : ℝ))) F.nloptOcc2 (otherMap F s').nloptOcc2 := by
  refine closeCosts_of fun x hx => ?_
  have h1 := squares_close F s' ε x h0 hε (h x hx) (1 / 2 * F.mapW) (by linarith)
  unfold Functor.nloptOcc2
  simp only
  rw [foldl_add_eq, foldl_add_eq, zero_add, zero_add]
  simp only [← sq]
  rw [← mul_sub, abs_mul]
  have e : ∀ a b c d : ℝ, a + c + d - (b + c + d) = a - b := fun a b c d => by ring
  have h2 := mul_le_mul_of_nonneg_left h1 (abs_nonneg (1 / 2 : ℝ))
  refine le_trans (le_of_eq ?_) (le_trans h2 (le_of_eq ?_))
  · congr 2
    exact e _ _ _ _
  · rw [abs_of_pos (by norm_num : (0 : ℝ) < 1 / 2)]
    ring

theorem alglib_close {n d : Nat} (F : Functor n d) (s' : (Fin d → ℝ) → Fl ℝ) (ε : ℝ) (x : Fin n → ℝ) (h0 : 0 ≤ F.tiny) (hε : 0 ≤ ε) (h : CloseScores ε F s' x) (rest : List ℝ) :
    |sumSq (F.alglibPoints x ++ rest) - sumSq ((otherMap F s').alglibPoints x ++ rest)| ≤ F.mapW ^ 2 * (2 * (ε + F.tiny)) / (F.points.length : ℝ) := by
  have h1 := squares_close F s' ε x h0 hε h (F.mapW ^ 2) (sq_nonneg _)
  rw [sumSq_append, sumSq_append, add_sub_add_right_eq_sub]
  refine le_trans (le_of_eq ?_) h1
  congr 1
  unfold sumSq Functor.alglibPoints
  rw [List.map_map, List.map_map]
  congr 2
  · exact List.map_congr_left fun p _ => by simp only [Function.comp]; ring
  · exact List.map_congr_left fun p _ => by
      show (F.mapW * pointCost F.tiny (s' (F.act x p)) / (F.points.length : ℝ)) ^ 2 = _
      ring

/-- **C132** (alglib) -/
theorem C132_alglib :
    (∀ (F : Functor 3 2) (s' : (Fin 2 → ℝ) → Fl ℝ) (P : Set (Fin 3 → ℝ)) (ε : ℝ), 0 ≤ F.tiny → 0 ≤ ε → (∀ x ∈ P, CloseScores ε F s' x) →
      CloseCosts P (F.mapW ^ 2 * (2 * (ε + F.tiny)) / (F.points.length : ℝ)) (fun x => sumSq (F.alglib2 x)) fun x => sumSq ((otherMap F s').alglib2 x)) ∧
    (∀ (F : Functor 6 3) (s' : (Fin 3 → ℝ) → Fl ℝ) (P : Set (Fin 6 → ℝ)) (ε : ℝ), 0 ≤ F.tiny → 0 ≤ ε → (∀ x ∈ P, CloseScores ε F s' x) →
      CloseCosts P (F.mapW ^ 2 * (2 * (ε + F.tiny)) / (F.points.length : ℝ)) (fun x => sumSq (F.alglibRPY x)) fun x => sumSq ((otherMap F s').alglibRPY x)) ∧
    (∀ (F : Functor 7 3) (s' : (Fin 3 → ℝ) → Fl ℝ) (P : Set (Fin 7 → ℝ)) (ε : ℝ), 0 ≤ F.tiny → 0 ≤ ε → (∀ x ∈ P, CloseScores ε F s' x) →
      CloseCosts P (F.mapW ^ 2 * (2 * (ε + F.tiny)) / (F.points.length : ℝ)) (fun x => sumSq (F.alglibQuat x)) fun x => sumSq ((otherMap F s').alglibQuat x)) :=
  ⟨fun F s' P ε h0 hε h => closeCosts_of fun x hx => alglib_close F s' ε x h0 hε (h x hx) _, fun F s' P ε h0 hε h => closeCosts_of fun x hx => alglib_close F s' ε x h0 hε (h x hx) _,
    fun F s' P ε h0 hε h => closeCosts_of fun x hx => alglib_close F s' ε x h0 hε (h x hx) _⟩

theorem ceres_close {α : Type} (l : List α) (v v' : α → ℝ) (ε mw c : ℝ) (hε : 0 ≤ ε) (hv : ∀ p ∈ l, 0 ≤ v p ∧ v p ≤ 1) (hv' : ∀ p ∈ l, 0 ≤ v' p ∧ v' p ≤ 1) (h : ∀ p ∈ l, |v p - v' p| ≤ ε) :
    |1 / 2 * (mw ^ 2 * mean (l.map fun p => v p ^ 2) + c) - 1 / 2 * (mw ^ 2 * mean (l.map fun p => v' p ^ 2) + c)| ≤ mw ^ 2 * ε := by
  have h1 := mean_close (fun p => v p ^ 2) (fun p => v' p ^ 2) (2 * ε) (by linarith) l fun p hp => sq_close (hv p hp) (hv' p hp) (h p hp)
  unfold mean
  rw [List.length_map, List.length_map]
  rw [show ∀ a b : ℝ, 1 / 2 * (mw ^ 2 * a + c) - 1 / 2 * (mw ^ 2 * b + c) = 1 / 2 * mw ^ 2 * (a - b) from fun a b => by ring, abs_mul, abs_of_nonneg (by positivity)]
  have h2 := mul_le_mul_of_nonneg_left h1 (by positivity : 0 ≤ 1 / 2 * mw ^ 2)
  linarith

/-- **C132** (ceres). If the values of two maps are between 0 and 1 and differ by at most `ε`, the costs differ by at most the squared map weight times `ε`. -/
theorem C132_ceres :
    (∀ (tw rw' mw : ℝ) (prior : Fin 2 → ℝ) (priorR : ℝ) (numeric : Bool) (S S' : ScanTerm 2) (v v' : (Fin 2 → ℝ) → ℝ) (ε : ℝ), 0 ≤ ε → S'.points = S.points →
      (∀ q, 0 ≤ v q ∧ v q ≤ 1 ∧ S.evaluateDouble q = .fin (v q) ∧ S.evaluateJet q = .fin (v q)) → (∀ q, 0 ≤ v' q ∧ v' q ≤ 1 ∧ S'.evaluateDouble q = .fin (v' q) ∧ S'.evaluateJet q = .fin (v' q)) →
      (∀ q, |v q - v' q| ≤ ε) →
      ∃ f f' : (Fin 2 → ℝ) × (Fin 1 → ℝ) → ℝ, (∀ x, (problem2d tw rw' mw prior priorR numeric S).cost x.1 x.2 = .fin (f x)) ∧ (∀ x, (problem2d tw rw' mw prior priorR numeric S').cost x.1 x.2 = .fin (f' x)) ∧
        CloseCosts Set.univ (mw ^ 2 * ε) f f') ∧
    (∀ (tw rw' mw : ℝ) (prior priorR : Fin 3 → ℝ) (onlyYaw numeric : Bool) (S S' : ScanTerm 3) (v v' : (Fin 3 → ℝ) → ℝ) (ε : ℝ), 0 ≤ ε → S'.points = S.points →
      (∀ q, 0 ≤ v q ∧ v q ≤ 1 ∧ S.evaluateDouble q = .fin (v q) ∧ S.evaluateJet q = .fin (v q)) → (∀ q, 0 ≤ v' q ∧ v' q ≤ 1 ∧ S'.evaluateDouble q = .fin (v' q) ∧ S'.evaluateJet q = .fin (v' q)) →
      (∀ q, |v q - v' q| ≤ ε) →
      ∃ f f' : (Fin 3 → ℝ) × (Fin 3 → ℝ) → ℝ, (∀ x, (problem3dRPY tw rw' mw prior priorR onlyYaw numeric S).cost x.1 x.2 = .fin (f x)) ∧
        (∀ x, (problem3dRPY tw rw' mw prior priorR onlyYaw numeric S').cost x.1 x.2 = .fin (f' x)) ∧ CloseCosts Set.univ (mw ^ 2 * ε) f f') ∧
    (∀ (tw rw' mw : ℝ) (prior : Fin 3 → ℝ) (priorR : Quat) (onlyYaw numeric : Bool) (S S' : ScanTerm 3) (v v' : (Fin 3 → ℝ) → ℝ) (ε : ℝ), 0 ≤ ε → quatNormSq priorR = 1 → S'.points = S.points →
      (∀ q, 0 ≤ v q ∧ v q ≤ 1 ∧ S.evaluateDouble q = .fin (v q) ∧ S.evaluateJet q = .fin (v q)) → (∀ q, 0 ≤ v' q ∧ v' q ≤ 1 ∧ S'.evaluateDouble q = .fin (v' q) ∧ S'.evaluateJet q = .fin (v' q)) →
      (∀ q, |v q - v' q| ≤ ε) →
      ∃ f f' : (Fin 3 → ℝ) × {q : Quat // quatNormSq q = 1} → ℝ, (∀ x, (problem3dQuaternion tw rw' mw prior priorR onlyYaw numeric S).cost x.1 x.2 = .fin (f x)) ∧
        (∀ x, (problem3dQuaternion tw rw' mw prior priorR onlyYaw numeric S').cost x.1 x.2 = .fin (f' x)) ∧ CloseCosts Set.univ (mw ^ 2 * ε) f f') := by
  refine ⟨?_, ?_, ?_⟩
  · intro tw rw' mw prior priorR numeric S S' v v' ε hε hS hv hv' h
    have c := fun x : (Fin 2 → ℝ) × (Fin 1 → ℝ) => C75_cost_2d tw rw' mw prior priorR numeric S x.1 x.2 (fun p => v (moved2 x.1 (x.2 0) p)) fun _ p _ => (hv _).2.2
    have c' := fun x : (Fin 2 → ℝ) × (Fin 1 → ℝ) => C75_cost_2d tw rw' mw prior priorR numeric S' x.1 x.2 (fun p => v' (moved2 x.1 (x.2 0) p)) fun _ p _ => (hv' _).2.2
    choose e a b f using c
    choose e' a' b' f' using c'
    refine ⟨_, _, f, f', closeCosts_of fun x _ => ?_⟩
    have he : e' x ^ 2 = e x ^ 2 := sq_eq_of_sameAngle (a' x) (a x) ((b' x).trans (b x).symm)
    rw [hS, he, add_assoc, add_assoc]
    exact ceres_close S.points _ _ ε mw _ hε (fun p _ => ⟨(hv _).1, (hv _).2.1⟩) (fun p _ => ⟨(hv' _).1, (hv' _).2.1⟩) fun p _ => h _
  · intro tw rw' mw prior priorR onlyYaw numeric S S' v v' ε hε hS hv hv' h
    have c := fun x : (Fin 3 → ℝ) × (Fin 3 → ℝ) => C75_cost_rpy tw rw' mw prior priorR onlyYaw numeric S x.1 x.2 (fun p => v (movedRPY x.1 x.2 p)) fun _ p _ => (hv _).2.2
    have c' := fun x : (Fin 3 → ℝ) × (Fin 3 → ℝ) => C75_cost_rpy tw rw' mw prior priorR onlyYaw numeric S' x.1 x.2 (fun p => v' (movedRPY x.1 x.2 p)) fun _ p _ => (hv' _).2.2
    choose e a f using c
    choose e' a' f' using c'
    refine ⟨_, _, f, f', closeCosts_of fun x _ => ?_⟩
    have he : ∑ i, e' x i ^ 2 = ∑ i, e x i ^ 2 := Finset.sum_congr rfl fun i _ => sq_eq_of_sameAngle (a' x i).1 (a x i).1 ((a' x i).2.trans (a x i).2.symm)
    rw [hS, he, add_assoc, add_assoc]
    exact ceres_close S.points _ _ ε mw _ hε (fun p _ => ⟨(hv _).1, (hv _).2.1⟩) (fun p _ => ⟨(hv' _).1, (hv' _).2.1⟩) fun p _ => h _
  · intro tw rw' mw prior priorR onlyYaw numeric S S' v v' ε hε hn hS hv hv' h
    have f := fun x : (Fin 3 → ℝ) × {q : Quat // quatNormSq q = 1} => C75_cost_quaternion_partial tw rw' mw prior priorR onlyYaw numeric S x.1 x.2 (fun p => v (moved3 x.1 x.2 p)) hn x.2.2 fun _ p _ => (hv _).2.2
    have f' := fun x : (Fin 3 → ℝ) × {q : Quat // quatNormSq q = 1} => C75_cost_quaternion_partial tw rw' mw prior priorR onlyYaw numeric S' x.1 x.2 (fun p => v' (moved3 x.1 x.2 p)) hn x.2.2 fun _ p _ => (hv' _).2.2
    refine ⟨_, _, f, f', closeCosts_of fun x _ => ?_⟩
    rw [hS, add_assoc, add_assoc]
    exact ceres_close S.points _ _ ε mw _ hε (fun p _ => ⟨(hv _).1, (hv _).2.1⟩) (fun p _ => ⟨(hv' _).1, (hv' _).2.1⟩) fun p _ => h _

/-- **C132** is false of nlopt on 3D occupancy maps: points whose score is below the smallest normal number are skipped there instead of counted as lost. However small `ε` is, two maps whose scores differ by at most `ε` can have costs that differ
by the map weight times 1 - tiny, for Euler angles and for quaternions. -/
theorem C132_occupancy_refuted (tiny mapW : ℝ) (h0 : 0 < tiny) (h1 : tiny ≤ 1) (ε : ℝ) (hε : 0 < ε) :
    (∃ (F : Functor 6 3) (s' : (Fin 3 → ℝ) → Fl ℝ), F.tiny = tiny ∧ F.mapW = mapW ∧ F.points ≠ [] ∧ (∀ x, CloseScores ε F s' x) ∧ ∀ x, F.nloptOccRPY x - (otherMap F s').nloptOccRPY x = mapW * (1 - tiny)) ∧
    (∃ (F : Functor 7 3) (s' : (Fin 3 → ℝ) → Fl ℝ), F.tiny = tiny ∧ F.mapW = mapW ∧ F.points ≠ [] ∧ (∀ x, CloseScores ε F s' x) ∧
      ∀ (roll pitch yaw : Quat → ℝ) x, F.nloptOccQuat roll pitch yaw x - (otherMap F s').nloptOccQuat roll pitch yaw x = mapW * (1 - tiny)) := by
  have hm : 0 < min ε tiny := lt_min hε h0
  have hm1 := min_le_left ε tiny
  have hm2 := min_le_right ε tiny
  have hclose : ∀ {n : Nat} (F : Functor n 3) (x : Fin n → ℝ), F.sample = (fun _ => .fin tiny) → CloseScores ε F (fun _ => .fin (tiny - min ε tiny)) x := fun F x e p _ => by
    refine ⟨tiny, tiny - min ε tiny, by rw [e], rfl, ⟨h0.le, h1⟩, ⟨by linarith, by linarith⟩, ?_⟩
    rw [sub_sub_cancel, abs_of_pos hm]
    exact hm1
  have c1 : pointCostSkip tiny (.fin tiny) = 1 - tiny := by simp [pointCostSkip, Fl.isNormal, value, abs_of_pos h0]
  have c2 : pointCostSkip tiny (.fin (tiny - min ε tiny)) = 0 := by
    have : ¬ tiny ≤ |tiny - min ε tiny| := by
      rw [abs_of_nonneg (by linarith)]
      linarith
    simp [pointCostSkip, Fl.isNormal, this]
  refine ⟨⟨{ onePoint 6 3 (.fin tiny) with tiny := tiny, mapW := mapW }, fun _ => .fin (tiny - min ε tiny), rfl, rfl, by simp [onePoint], fun x => hclose _ x rfl, fun x => ?_⟩,
    ⟨{ onePoint 7 3 (.fin tiny) with tiny := tiny, mapW := mapW }, fun _ => .fin (tiny - min ε tiny), rfl, rfl, by simp [onePoint], fun x => hclose _ x rfl, fun roll pitch yaw x => ?_⟩⟩
  · simp [Functor.nloptOccRPY, Functor.weighted, Functor.sumCost, otherMap, onePoint, c1, c2]
  · simp [Functor.nloptOccQuat, Functor.weighted, Functor.sumCost, otherMap, onePoint, c1, c2]

/-- the hypotheses can be met: two maps that differ everywhere -/
example : ∃ (F : Functor 3 2) (s' : (Fin 2 → ℝ) → Fl ℝ), 0 < F.tiny ∧ 0 < F.mapW ∧ F.points ≠ [] ∧ (∀ x, CloseScores (1 / 4) F s' x) ∧ ∀ x, F.nlopt2 x ≠ (otherMap F s').nlopt2 x := by
  refine ⟨onePoint 3 2 (.fin (1 / 2)), fun _ => .fin (3 / 4), by norm_num [onePoint], by norm_num [onePoint], by simp [onePoint], fun x p _ => ⟨1 / 2, 3 / 4, rfl, rfl, by norm_num, by norm_num, by norm_num [abs_le]⟩, fun x h => ?_⟩
  have e1 : pointCost (1 / 1024) (.fin (1 / 2)) = 1 / 2 := by norm_num [pointCost, Fl.isNormal, value]
  have e2 : pointCost (1 / 1024) (.fin (3 / 4)) = 1 / 4 := by norm_num [pointCost, Fl.isNormal, value]
  simp only [Functor.nlopt2, Functor.weighted, Functor.sumCost, otherMap, onePoint, List.foldl, e1, e2] at h
  norm_num at h

/-! ### Sampling in floating point -/

theorem pow_mirror {K : Type} [Field K] [LinearOrder K] [IsStrictOrderedRing K] {u : K} (h0 : 0 ≤ u) (h1 : u ≤ 1) (N : Nat) : 1 - (1 - u) ^ N ≤ (1 + u) ^ N - 1 := by
  have h2 := one_add_mul_le_pow (show (-2 : K) ≤ u by linarith) N
  have h3 := one_add_mul_le_pow (show (-2 : K) ≤ -u by linarith) N
  rw [← sub_eq_add_neg] at h3
  linarith

/-- **C132** (rounded samples). The sample that a map of floats (24 bits) or doubles (53 bits) returns differs by at most `(1 + 2^-t)^(2^d + 1) - 1` from the exact sample, where the bundle of the point is computed correctly. -/
theorem C132_sample {K : Type} [Field K] [LinearOrder K] [IsStrictOrderedRing K] [FloorRing K] {d : Nat} {D : Type} [Inhabited D] (k : Kind d) (exp : D → Bool) (st : St k.backend D) (hR : MapReachable k exp st) (t : Nat) (ht : 1 ≤ t)
    (g : Geo K d) (dens : D → Pt K d → K) (hd : ∀ s q, 0 ≤ dens s q ∧ dens s q ≤ 1) (p : Pt K d) (hbi : toBundleIndexR (ieeeArith K t ht) g.r (g.toMap p) = some (toBundleIndex g.r (g.toMap p))) (x y : K)
    (hx : St.sampleNNAtR (ieeeArith K t ht) g k.dyn dens p st = some x) (hy : St.sampleNNAt g k.dyn dens p st = some y) :
    |y - x| ≤ (1 + ((2 : K) ^ t)⁻¹) ^ (2 ^ d + 1) - 1 ∧ 0 ≤ y ∧ y ≤ 1 := by
  have hu : (0 : K) ≤ ((2 : K) ^ t)⁻¹ := by positivity
  have hu1 : ((2 : K) ^ t)⁻¹ ≤ 1 := inv_le_one_of_one_le₀ (one_le_pow₀ (by norm_num))
  have hm := pow_mirror hu hu1 (2 ^ d + 1)
  have hbase : (0 : K) ≤ (1 + ((2 : K) ^ t)⁻¹) ^ (2 ^ d + 1) - 1 := sub_nonneg.2 (one_le_pow₀ (by linarith))
  have hI := hR.spec.1
  unfold St.sampleNNAt St.sampleNN at hy
  obtain ⟨h1, h2⟩ := (sampleWith_spec k.lawful k.dyn _ _ _ st hI).1 y hy
  have hal : toBundleIndex g.r (g.toMap p) ∈ st.abs.allocated ↔ toBundleIndex g.r (g.toMap p) ∈ st.bundleIndices := by
    rw [mem_allocated_iff, mem_bundleIndices k.lawful st hI.inv]
  rw [hal] at h1 h2
  obtain ⟨h3, h4⟩ := C83_nearest_error k exp st hR t ht g dens (fun s q => (hd s q).1) p _ hbi x hx
  by_cases hb : toBundleIndex g.r (g.toMap p) ∈ st.bundleIndices
  · obtain ⟨s, hs, h5, h6⟩ := h3 hb
    have e : y = (∑ c ∈ Finset.range (2 ^ d), dens (s c) (g.toMap p)) / 2 ^ d := by
      rw [h1 ⟨hR.valid _ hb, hb⟩, div_eq_inv_mul, Finset.mul_sum]
      refine Finset.sum_congr rfl fun c hc => ?_
      rw [Option.some.inj ((binContent_val hR hb (Finset.mem_range.1 hc)).symm.trans (hs c (Finset.mem_range.1 hc))), divCount_eq, one_div]
    obtain ⟨y0, y1⟩ := mean_mem (fun c => dens (s c) (g.toMap p)) d fun c => hd _ _
    rw [← e] at h5 h6 y0 y1
    refine ⟨abs_le.2 ⟨?_, ?_⟩, y0, y1⟩
    · have := mul_le_mul_of_nonneg_right y1 hbase
      linarith
    · have h7 : (0 : K) ≤ 1 - (1 - ((2 : K) ^ t)⁻¹) ^ (2 ^ d + 1) := sub_nonneg.2 (pow_le_one₀ (by linarith) (by linarith))
      have := mul_le_mul_of_nonneg_right y1 h7
      linarith
  · rw [h2 fun h => hb h.2, h4 hb, sub_zero, abs_zero]
    exact ⟨hbase, le_rfl, zero_le_one⟩

/-- **C132** (rounded samples). So the theorems above compare matching with exact samples and matching with rounded samples: if the bundles of the moved points are computed correctly, the scores are close in their sense. -/
theorem C132_rounded {n d : Nat} {D : Type} [Inhabited D] (k : Kind d) (exp : D → Bool) (st : St k.backend D) (hR : MapReachable k exp st) (t : Nat) (ht : 1 ≤ t) (hdt : d ≤ t) (g : Geo ℝ d) (dens : D → Pt ℝ d → ℝ)
    (hd : ∀ s q, 0 ≤ dens s q ∧ dens s q ≤ 1) (F : Functor n d) (s' : (Fin d → ℝ) → Fl ℝ) (x : Fin n → ℝ)
    (hbi : ∀ p ∈ F.points, toBundleIndexR (ieeeArith ℝ t ht) g.r (g.toMap (F.act x p)) = some (toBundleIndex g.r (g.toMap (F.act x p))))
    (he : ∀ p ∈ F.points, ∃ a, St.sampleNNAt g k.dyn dens (F.act x p) st = some a ∧ F.sample (F.act x p) = .fin a)
    (hr : ∀ p ∈ F.points, ∃ b, St.sampleNNAtR (ieeeArith ℝ t ht) g k.dyn dens (F.act x p) st = some b ∧ s' (F.act x p) = .fin b) :
    CloseScores ((1 + ((2 : ℝ) ^ t)⁻¹) ^ (2 ^ d + 1) - 1) F s' x := fun p hp => by
  obtain ⟨a, ha, fa⟩ := he p hp
  obtain ⟨b, hb, fb⟩ := hr p hp
  obtain ⟨h1, h2⟩ := C132_sample k exp st hR t ht g dens hd _ (hbi p hp) b a hb ha
  exact ⟨a, b, fa, fb, h2, C83_nearest_unit k exp st hR t ht hdt g dens hd _ b hb, h1⟩

/-- the hypotheses of `C132_sample` can be met, in a map of floats with a point in it -/
example (f : Nat → Nat) (f' : Nat) (exp : Multiset (Pt ℚ 2) → Bool) :
    ∃ (st : St (Kind.dynamic (d := 2) f f').backend (Multiset (Pt ℚ 2))) (x y : ℚ), MapReachable (Kind.dynamic f f') exp st ∧ ![0, 0] ∈ st.bundleIndices ∧
      toBundleIndexR float32 twoGeo.r (twoGeo.toMap floatPoint) = some (toBundleIndex twoGeo.r (twoGeo.toMap floatPoint)) ∧
      St.sampleNNAtR float32 twoGeo true (fun _ _ => 1 / 3) floatPoint st = some x ∧ St.sampleNNAt twoGeo true (fun _ _ => 1 / 3) floatPoint st = some y := by
  obtain ⟨st, _, h2, h3, h4⟩ := one_point_runs (Kind.dynamic f f') float32 twoGeo exp floatPoint rfl ![0, 0] floatPoint_index (dyn_origin f f') rfl
  obtain ⟨x, hx⟩ := (sampleWithR_spec (Kind.dynamic f f').lawful float32 true (fun _ => divCountR float32 2) (fun _ => (1 / 3 : ℚ)) ![0, 0] st h2.spec.1).2 h4
  have e : toBundleIndex twoGeo.r (twoGeo.toMap floatPoint) = ![0, 0] := by decide +kernel
  obtain ⟨y, hy⟩ := (sampleWith_spec (Kind.dynamic f f').lawful true (fun _ => divCount ℚ 2) (fun _ => (1 / 3 : ℚ)) ![0, 0] st h2.spec.1).2 h4
  refine ⟨st, x, y, h2, h3, ?_, ?_, ?_⟩
  · rw [e]; exact floatPoint_index
  · unfold St.sampleNNAtR
    rw [show twoGeo.toMap floatPoint = floatPoint from rfl, floatPoint_index, Option.bind_some]
    exact hx
  · unfold St.sampleNNAt St.sampleNN
    rw [e]; exact hy

end Ndt
