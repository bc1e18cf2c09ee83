import Verif.Model.PoseRounded
import Verif.Proofs.OccRounded
import Verif.Props.MatchFrame
import Verif.Proofs.SamplingRounded
import Mathlib.Analysis.InnerProductSpace.PiL2
import Mathlib.NumberTheory.Real.Irrational

/-! Property theorem C122: poses in floating point. Rounding errors of many yaw-only updates add up slowly, a level pose stays exactly level, and scan points are computed close to where the pose puts them. -/

namespace Ndt

open Real Matching Spec

/-- distance of two quaternions -/
noncomputable def Spec.quatDist (p q : Quat) : ℝ := √((p.w - q.w) ^ 2 + (p.x - q.x) ^ 2 + (p.y - q.y) ^ 2 + (p.z - q.z) ^ 2)

/-- length of a quaternion -/
noncomputable def Spec.quatNorm (q : Quat) : ℝ := √(quatNormSq q)

/-- The hypotheses on the arithmetic: rounding a number of the type leaves it alone, and the type has at least 6 bits. -/
structure Spec.Arithmetic (R : Rounding ℝ) : Prop where
  idem : ∀ x, R.rnd (R.rnd x) = R.rnd x
  fine : R.u ≤ 1 / 64

/-! ### Distances of quaternions -/

noncomputable def quatVec (q : Quat) : EuclideanSpace ℝ (Fin 4) := !₂[q.w, q.x, q.y, q.z]

theorem quatDist_eq (p q : Quat) : quatDist p q = dist (quatVec p) (quatVec q) := by
  rw [EuclideanSpace.dist_eq]
  simp [quatVec, quatDist, Fin.sum_univ_four, Real.dist_eq, sq_abs]

theorem quatDist_triangle (p q r : Quat) : quatDist p r ≤ quatDist p q + quatDist q r := by
  simp only [quatDist_eq]
  exact dist_triangle _ _ _

theorem quatNorm_le (p q : Quat) : quatNorm p ≤ quatNorm q + quatDist p q := by
  have e : ∀ q, quatNorm q = dist (quatVec q) 0 := by
    intro q
    rw [EuclideanSpace.dist_eq]
    simp [quatVec, quatNorm, quatNormSq, Fin.sum_univ_four, Real.dist_eq, sq_abs]
  rw [e, e, quatDist_eq]
  have := dist_triangle (quatVec p) (quatVec q) 0
  linarith

theorem quatDist_nonneg (p q : Quat) : 0 ≤ quatDist p q := sqrt_nonneg _

theorem quatDist_self (p : Quat) : quatDist p p = 0 := by simp [quatDist]

theorem quatDist_mul (p a b : Quat) (h : quatNormSq p = 1) : quatDist (p.mul a) (p.mul b) = quatDist a b := by
  unfold quatDist
  congr 1
  have := quatNormSq_mul p ⟨a.w - b.w, a.x - b.x, a.y - b.y, a.z - b.z⟩
  rw [h, one_mul] at this
  unfold quatNormSq Quat.mul at this
  unfold Quat.mul
  dsimp only at this ⊢
  linear_combination this

/-! ### One update -/

theorem difference_err (R : Rounding ℝ) (a b : ℝ) : |R.rnd (R.rnd a - R.rnd b) - (a - b)| ≤ ((1 + R.u) ^ 2 - 1) * (|a| + |b|) := by
  have h := R.err_step (x := R.rnd a - R.rnd b) (y := a - b) (A := |a| + |b|) (a := R.u) (by
    have h1 := R.err a
    have h2 := R.err b
    have : |R.rnd a - R.rnd b - (a - b)| ≤ |R.rnd a - a| + |R.rnd b - b| := by
      rw [show R.rnd a - R.rnd b - (a - b) = (R.rnd a - a) - (R.rnd b - b) by ring]
      exact abs_sub _ _
    linarith) (abs_sub _ _)
  rwa [show (1 + R.u) * (1 + R.u) = (1 + R.u) ^ 2 by ring] at h

theorem sum_err (R : Rounding ℝ) (a b : ℝ) : |R.rnd (R.rnd a + R.rnd b) - (a + b)| ≤ ((1 + R.u) ^ 2 - 1) * (|a| + |b|) := by
  have h := R.err_step (x := R.rnd a + R.rnd b) (y := a + b) (A := |a| + |b|) (a := R.u) (by
    have h1 := R.err a
    have h2 := R.err b
    have : |R.rnd a + R.rnd b - (a + b)| ≤ |R.rnd a - a| + |R.rnd b - b| := by
      rw [show R.rnd a + R.rnd b - (a + b) = (R.rnd a - a) + (R.rnd b - b) by ring]
      exact abs_add_le _ _
    linarith) (abs_add_le _ _)
  rwa [show (1 + R.u) * (1 + R.u) = (1 + R.u) ^ 2 by ring] at h

/-- the computed cosine of the half angle -/
theorem root_err (R : Rounding ℝ) (hu : R.u ≤ 1 / 64) {c : ℝ} (hc : |c| ≤ 1 / 2) : |R.rnd √(R.rnd (1 - R.rnd (c * c))) - √(1 - c * c)| ≤ 5 / 2 * R.u := by
  have h0 := R.nonneg
  have hcc : c * c ≤ 1 / 4 := by
    rw [← abs_mul_abs_self c]
    nlinarith [abs_nonneg c]
  have hcc0 : 0 ≤ c * c := mul_self_nonneg c
  set m := c * c
  set s := √(1 - m) with hs
  have hs2 : s * s = 1 - m := mul_self_sqrt (by linarith)
  have hs0 : 0 ≤ s := sqrt_nonneg _
  have hs1 : s ≤ 1 := by nlinarith
  have hs6 : 6 / 7 ≤ s := by nlinarith
  have e1 : |R.rnd m - m| ≤ R.u * (1 / 4) := (R.err m).trans (mul_le_mul_of_nonneg_left (by rw [abs_of_nonneg hcc0]; exact hcc) h0)
  have e1' := abs_le.1 e1
  set t := R.rnd (1 - R.rnd m) with ht
  have b : |1 - R.rnd m| ≤ 1 - m + R.u * (1 / 4) := by
    rw [abs_le]
    constructor <;> nlinarith
  have e2 : |t - (1 - R.rnd m)| ≤ R.u * (1 - m + R.u * (1 / 4)) := (R.err _).trans (mul_le_mul_of_nonneg_left b h0)
  have e2' := abs_le.1 e2
  have e3 : |t - s * s| ≤ R.u * (s * s) + R.u * (R.u * (1 / 4)) + R.u * (1 / 4) := by
    rw [hs2, abs_le]
    constructor <;> nlinarith
  have ht0 : 0 ≤ t := by
    have := (abs_le.1 e3).1
    nlinarith [mul_le_mul_of_nonneg_left hu h0]
  set q := √t with hq
  have hq0 : 0 ≤ q := sqrt_nonneg _
  have hq2 : q * q = t := mul_self_sqrt ht0
  have e4 : |q - s| * s ≤ |t - s * s| := by
    rw [show t - s * s = (q - s) * (q + s) by rw [← hq2]; ring, abs_mul, abs_of_nonneg (by linarith : 0 ≤ q + s)]
    exact mul_le_mul_of_nonneg_left (by linarith) (abs_nonneg _)
  have e5 : |q - s| ≤ 4 / 3 * R.u := by
    by_contra h
    push Not at h
    have k1 : 4 / 3 * R.u * s < |q - s| * s := mul_lt_mul_of_pos_right h (by linarith)
    have k2 : R.u * (R.u * (1 / 4)) ≤ R.u * (1 / 256) := mul_le_mul_of_nonneg_left (by linarith) h0
    have k3 : R.u * (s * s) ≤ R.u * s := mul_le_mul_of_nonneg_left (by nlinarith) h0
    have k4 : R.u * (6 / 7) ≤ R.u * s := mul_le_mul_of_nonneg_left hs6 h0
    nlinarith
  have e5' := abs_le.1 e5
  have e6 : |R.rnd q - q| ≤ R.u * (1 + 4 / 3 * R.u) := (R.err q).trans (mul_le_mul_of_nonneg_left (by rw [abs_of_nonneg hq0]; linarith) h0)
  have e7 : |R.rnd q - s| ≤ |R.rnd q - q| + |q - s| := abs_sub_le _ _ _
  nlinarith [mul_le_mul_of_nonneg_left hu h0]

/-- an update with the zeros of the factor worked out -/
theorem yawR_eq (R : Rounding ℝ) (hi : ∀ x, R.rnd (R.rnd x) = R.rnd x) (s c : ℝ) (q : Quat) : Quat.mulR R ⟨s, 0, 0, c⟩ q =
    ⟨R.rnd (R.rnd (s * q.w) - R.rnd (c * q.z)), R.rnd (R.rnd (s * q.x) - R.rnd (c * q.y)), R.rnd (R.rnd (s * q.y) + R.rnd (c * q.x)), R.rnd (R.rnd (s * q.z) + R.rnd (c * q.w))⟩ := by
  unfold Quat.mulR
  simp only [zero_mul, R.zero, sub_zero, add_zero, hi]

theorem combine_sq {a b w z : ℝ} {e : ℝ} (h : |e| ≤ a * |w| + b * |z|) : e ^ 2 ≤ (a * |w| + b * |z|) ^ 2 := by
  rw [← sq_abs]
  exact pow_le_pow_left₀ (abs_nonneg _) h 2

theorem square_sum {α β : ℝ} (hα : 0 ≤ α) (hβ : 0 ≤ β) (w x y z : ℝ) :
    (α * w + β * z) ^ 2 + (α * x + β * y) ^ 2 + (α * y + β * x) ^ 2 + (α * z + β * w) ^ 2 ≤ (α + β) ^ 2 * (w ^ 2 + x ^ 2 + y ^ 2 + z ^ 2) := by
  have hab := mul_nonneg hα hβ
  have k1 := mul_nonneg hab (sq_nonneg (w - z))
  have k2 := mul_nonneg hab (sq_nonneg (x - y))
  have : (α + β) ^ 2 * (w ^ 2 + x ^ 2 + y ^ 2 + z ^ 2) - ((α * w + β * z) ^ 2 + (α * x + β * y) ^ 2 + (α * y + β * x) ^ 2 + (α * z + β * w) ^ 2)
      = 2 * (α * β * (w - z) ^ 2) + 2 * (α * β * (x - y) ^ 2) := by ring
  linarith

/-- **C122** (one update). A computed yaw-only update differs from the exact one by at most 7 roundings, relative to the length of the quaternion. -/
theorem C122_update (R : Rounding ℝ) (hR : Arithmetic R) (q : Quat) (delta : ℝ) : quatDist (yawOnlyQuatPlusR R q delta) (yawOnlyQuatPlus q delta) ≤ 7 * R.u * quatNorm q := by
  have h0 := R.nonneg
  have hu := hR.fine
  set c := clamp delta (-(1 / 2)) (1 / 2) with hc
  have hc' : |c| ≤ 1 / 2 := by
    rw [hc, abs_le]
    unfold clamp
    split_ifs <;> constructor <;> linarith
  set s := √(1 - c * c) with hs
  set s' := R.rnd √(R.rnd (1 - R.rnd (c * c))) with hs'
  have es : |s' - s| ≤ 5 / 2 * R.u := root_err R hu hc'
  have hs0 : 0 ≤ s := sqrt_nonneg _
  have hs1 : s ≤ 1 := by
    rw [hs, sqrt_le_left one_pos.le]
    nlinarith [mul_self_nonneg c]
  have hsa : |s'| ≤ 1 + 5 / 2 * R.u := by
    have := abs_sub_abs_le_abs_sub s' s
    rw [abs_of_nonneg hs0] at this
    linarith
  set η := (1 + R.u) ^ 2 - 1 with hη
  have hη0 : 0 ≤ η := by rw [hη]; nlinarith
  have hη1 : η ≤ 129 / 64 * R.u := by rw [hη]; nlinarith
  set α := η * (1 + 5 / 2 * R.u) + 5 / 2 * R.u with hα
  set β := η * (1 / 2) with hβ
  have hα0 : 0 ≤ α := by rw [hα]; positivity
  have hβ0 : 0 ≤ β := by rw [hβ]; positivity
  have hsum : α + β ≤ 7 * R.u := by
    have k1 : η * (5 / 2 * R.u) ≤ η * (5 / 128) := mul_le_mul_of_nonneg_left (by linarith) hη0
    rw [hα, hβ]
    nlinarith
  have minus : ∀ a b : ℝ, |R.rnd (R.rnd (s' * a) - R.rnd (c * b)) - (s * a - c * b)| ≤ α * |a| + β * |b| := by
    intro a b
    have k1 := difference_err R (s' * a) (c * b)
    have k2 : |R.rnd (R.rnd (s' * a) - R.rnd (c * b)) - (s * a - c * b)| ≤ |R.rnd (R.rnd (s' * a) - R.rnd (c * b)) - (s' * a - c * b)| + |s' - s| * |a| := by
      rw [← abs_mul, show R.rnd (R.rnd (s' * a) - R.rnd (c * b)) - (s * a - c * b) = R.rnd (R.rnd (s' * a) - R.rnd (c * b)) - (s' * a - c * b) + (s' - s) * a by ring]
      exact abs_add_le _ _
    rw [abs_mul, abs_mul] at k1
    have k3 := mul_le_mul_of_nonneg_right es (abs_nonneg a)
    have k4 := mul_le_mul_of_nonneg_left (mul_le_mul_of_nonneg_right hsa (abs_nonneg a)) hη0
    have k5 := mul_le_mul_of_nonneg_left (mul_le_mul_of_nonneg_right hc' (abs_nonneg b)) hη0
    rw [hα, hβ]
    nlinarith
  have plus : ∀ a b : ℝ, |R.rnd (R.rnd (s' * a) + R.rnd (c * b)) - (s * a + c * b)| ≤ α * |a| + β * |b| := by
    intro a b
    have k1 := sum_err R (s' * a) (c * b)
    have k2 : |R.rnd (R.rnd (s' * a) + R.rnd (c * b)) - (s * a + c * b)| ≤ |R.rnd (R.rnd (s' * a) + R.rnd (c * b)) - (s' * a + c * b)| + |s' - s| * |a| := by
      rw [← abs_mul, show R.rnd (R.rnd (s' * a) + R.rnd (c * b)) - (s * a + c * b) = R.rnd (R.rnd (s' * a) + R.rnd (c * b)) - (s' * a + c * b) + (s' - s) * a by ring]
      exact abs_add_le _ _
    rw [abs_mul, abs_mul] at k1
    have k3 := mul_le_mul_of_nonneg_right es (abs_nonneg a)
    have k4 := mul_le_mul_of_nonneg_left (mul_le_mul_of_nonneg_right hsa (abs_nonneg a)) hη0
    have k5 := mul_le_mul_of_nonneg_left (mul_le_mul_of_nonneg_right hc' (abs_nonneg b)) hη0
    rw [hα, hβ]
    nlinarith
  have hy : yawOnlyQuatPlus q delta = ⟨s * q.w - c * q.z, s * q.x - c * q.y, s * q.y + c * q.x, s * q.z + c * q.w⟩ := by
    show Quat.mul ⟨s, 0, 0, c⟩ q = _
    unfold Quat.mul
    simp only [zero_mul, sub_zero, add_zero]
  have hyR : yawOnlyQuatPlusR R q delta = Quat.mulR R ⟨s', 0, 0, c⟩ q := rfl
  rw [hyR, yawR_eq R hR.idem, hy]
  unfold quatDist quatNorm quatNormSq
  dsimp only
  have b1 := combine_sq (minus q.w q.z)
  have b2 := combine_sq (minus q.x q.y)
  have b3 := combine_sq (plus q.y q.x)
  have b4 := combine_sq (plus q.z q.w)
  rw [sqrt_le_left (by positivity), mul_pow, sq_sqrt (by positivity)]
  have t := square_sum hα0 hβ0 |q.w| |q.x| |q.y| |q.z|
  simp only [sq_abs] at t
  have t2 : (α + β) ^ 2 * (q.w ^ 2 + q.x ^ 2 + q.y ^ 2 + q.z ^ 2) ≤ (7 * R.u) ^ 2 * (q.w ^ 2 + q.x ^ 2 + q.y ^ 2 + q.z ^ 2) :=
    mul_le_mul_of_nonneg_right (pow_le_pow_left₀ (by linarith) hsum 2) (by positivity)
  linarith

/-! ### Many updates -/

/-- the exact updates, in order -/
noncomputable def Spec.yawRun (q : Quat) (steps : List ℝ) : Quat := steps.foldl yawOnlyQuatPlus q

theorem yawRun_normSq (q : Quat) (steps : List ℝ) : quatNormSq (yawRun q steps) = quatNormSq q := by
  induction steps generalizing q with
  | nil => rfl
  | cons d l ih => exact (ih _).trans (C45_yaw_quat q d).1

/-- what the exact updates do: they turn by the sum of the angles of the steps about the vertical axis -/
theorem yawRun_rotate (q : Quat) (hq : quatNormSq q = 1) (steps : List ℝ) (v : Fin 3 → ℝ) : (yawRun q steps).rotate v = rotZ (steps.map stepAngle).sum (q.rotate v) := by
  induction steps generalizing q with
  | nil =>
    refine ext3 ?_ ?_ ?_ <;> simp [yawRun, rotZ]
  | cons d l ih =>
    show (yawRun (yawOnlyQuatPlus q d) l).rotate v = _
    rw [ih _ ((C45_yaw_quat q d).1.trans hq), C45_yaw_quat_rotation q hq, List.map_cons, List.sum_cons, rotZ_add]

theorem quatDist_yaw (a b : Quat) (d : ℝ) : quatDist (yawOnlyQuatPlus a d) (yawOnlyQuatPlus b d) = quatDist a b := quatDist_mul _ a b (yawQuat_unit d)

/-- **C122** (many updates). After any number of yaw-only updates the rotation is the exactly composed one up to an error that grows by 7 roundings per update, relative to the length of the quaternion. -/
theorem C122_updates (R : Rounding ℝ) (hR : Arithmetic R) (q : Quat) (steps : List ℝ) : quatDist (yawRunR R q steps) (yawRun q steps) ≤ ((1 + 7 * R.u) ^ steps.length - 1) * quatNorm q := by
  induction steps using List.reverseRecOn with
  | nil => simp [yawRunR, yawRun, quatDist_self]
  | append_singleton l d ih =>
    have h0 := R.nonneg
    unfold yawRunR yawRun at ih ⊢
    rw [List.foldl_append, List.foldl_append, List.length_append]
    simp only [List.foldl_cons, List.foldl_nil, List.length_cons, List.length_nil, zero_add]
    set a := List.foldl (yawOnlyQuatPlusR R) q l
    set b := List.foldl yawOnlyQuatPlus q l with hb
    have k1 := quatDist_triangle (yawOnlyQuatPlusR R a d) (yawOnlyQuatPlus a d) (yawOnlyQuatPlus b d)
    rw [quatDist_yaw] at k1
    have k2 := C122_update R hR a d
    have k3 := quatNorm_le a b
    have k4 : quatNorm b = quatNorm q := by
      unfold quatNorm
      rw [show quatNormSq b = quatNormSq q from yawRun_normSq q l]
    rw [k4] at k3
    have k5 := mul_le_mul_of_nonneg_left k3 (by linarith : 0 ≤ 7 * R.u)
    have k6 := mul_le_mul_of_nonneg_left ih (by linarith : 0 ≤ 7 * R.u)
    rw [pow_succ]
    nlinarith

/-- **C122** (length). The length of the quaternion stays near 1, although it is never normalised. -/
theorem C122_length (R : Rounding ℝ) (hR : Arithmetic R) (q : Quat) (hq : quatNormSq q = 1) (steps : List ℝ) : |quatNorm (yawRunR R q steps) - 1| ≤ (1 + 7 * R.u) ^ steps.length - 1 := by
  have h := C122_updates R hR q steps
  have e : quatNorm q = 1 := by rw [quatNorm, hq, sqrt_one]
  have e2 : quatNorm (yawRun q steps) = 1 := by rw [quatNorm, yawRun_normSq, hq, sqrt_one]
  have k1 := quatNorm_le (yawRunR R q steps) (yawRun q steps)
  have k2 := quatNorm_le (yawRun q steps) (yawRunR R q steps)
  have k3 : quatDist (yawRun q steps) (yawRunR R q steps) = quatDist (yawRunR R q steps) (yawRun q steps) := by
    rw [quatDist_eq, quatDist_eq, dist_comm]
  rw [e, mul_one] at h
  rw [abs_le]
  constructor <;> linarith

/-- **C122** (level). A level rotation stays exactly level, and the computed heights of the scan points are their heights plus the height of the sensor, rounded once. -/
theorem C122_level (R : Rounding ℝ) (hR : Arithmetic R) (q : Quat) (hx : q.x = 0) (hy : q.y = 0) (steps : List ℝ) :
    (yawRunR R q steps).x = 0 ∧ (yawRunR R q steps).y = 0 ∧ ∀ t p, R.rnd (p 2) = p 2 → moved3R R t (yawRunR R q steps) p 2 = R.rnd (p 2 + t 2) := by
  have key : (yawRunR R q steps).x = 0 ∧ (yawRunR R q steps).y = 0 := by
    unfold yawRunR
    induction steps generalizing q with
    | nil => exact ⟨hx, hy⟩
    | cons d l ih =>
      refine ih _ ?_ ?_ <;> unfold yawOnlyQuatPlusR <;> rw [yawR_eq R hR.idem] <;> simp only [hx, hy, mul_zero, R.zero, sub_zero, add_zero]
  refine ⟨key.1, key.2, fun t p hp => ?_⟩
  unfold moved3R Quat.rotateR crossR
  simp only [key.1, key.2, zero_mul, mul_zero, R.zero, sub_zero, add_zero, Matrix.cons_val_two, Matrix.tail_cons, Matrix.head_cons, hp]

/-! ### Scan points -/

theorem crossR_err (R : Rounding ℝ) {B M ε a1 a2 b1 b2 b1' b2' : ℝ} (h1 : |a1| ≤ B) (h2 : |a2| ≤ B) (k1 : |b1| ≤ M) (k2 : |b2| ≤ M) (e1 : |b1' - b1| ≤ ε * M) (e2 : |b2' - b2| ≤ ε * M) :
    |crossR R a1 b2' a2 b1' - (a1 * b2 - a2 * b1)| ≤ ((1 + R.u) ^ 2 * (1 + ε) - 1) * (2 * (B * M)) ∧ |a1 * b2 - a2 * b1| ≤ 2 * (B * M) := by
  have hB : 0 ≤ B := (abs_nonneg _).trans h1
  have hM : 0 ≤ M := (abs_nonneg _).trans k1
  have prod : ∀ {a b b' : ℝ}, |a| ≤ B → |b| ≤ M → |b' - b| ≤ ε * M → |R.rnd (a * b') - a * b| ≤ ((1 + R.u) * (1 + ε) - 1) * (B * M) ∧ |a * b| ≤ B * M := by
    intro a b b' ha hb he
    have hab : |a * b| ≤ B * M := by rw [abs_mul]; exact mul_le_mul ha hb (abs_nonneg _) hB
    refine ⟨R.err_step ?_ hab, hab⟩
    rw [← mul_sub, abs_mul, show ε * (B * M) = B * (ε * M) by ring]
    exact mul_le_mul ha he (abs_nonneg _) hB
  obtain ⟨p1, q1⟩ := prod h1 k2 e2
  obtain ⟨p2, q2⟩ := prod h2 k1 e1
  have hs : |a1 * b2 - a2 * b1| ≤ 2 * (B * M) := by
    have := abs_sub (a1 * b2) (a2 * b1)
    linarith
  refine ⟨?_, hs⟩
  unfold crossR
  rw [show (1 + R.u) ^ 2 * (1 + ε) - 1 = (1 + R.u) * (1 + ((1 + R.u) * (1 + ε) - 1)) - 1 by ring]
  refine R.err_step ?_ hs
  have : |R.rnd (a1 * b2') - R.rnd (a2 * b1') - (a1 * b2 - a2 * b1)| ≤ |R.rnd (a1 * b2') - a1 * b2| + |R.rnd (a2 * b1') - a2 * b1| := by
    rw [show R.rnd (a1 * b2') - R.rnd (a2 * b1') - (a1 * b2 - a2 * b1) = (R.rnd (a1 * b2') - a1 * b2) - (R.rnd (a2 * b1') - a2 * b1) by ring]
    exact abs_sub _ _
  linarith

/-- one component of `2 (q × v)` -/
theorem twice_err (R : Rounding ℝ) {B M a1 a2 b1 b2 : ℝ} (h1 : |a1| ≤ B) (h2 : |a2| ≤ B) (k1 : |b1| ≤ M) (k2 : |b2| ≤ M) :
    |R.rnd (2 * crossR R a1 b2 a2 b1) - 2 * (a1 * b2 - a2 * b1)| ≤ ((1 + R.u) ^ 3 - 1) * (4 * (B * M)) ∧ |2 * (a1 * b2 - a2 * b1)| ≤ 4 * (B * M) := by
  obtain ⟨e, b⟩ := crossR_err R h1 h2 k1 k2 (ε := 0) (b1' := b1) (b2' := b2) (by simp) (by simp)
  have hb : |2 * (a1 * b2 - a2 * b1)| ≤ 4 * (B * M) := by rw [abs_mul, abs_of_pos two_pos]; linarith
  refine ⟨?_, hb⟩
  rw [show (1 + R.u) ^ 3 - 1 = (1 + R.u) * (1 + ((1 + R.u) ^ 2 * (1 + 0) - 1)) - 1 by ring]
  refine R.err_step ?_ hb
  rw [← mul_sub, abs_mul, abs_of_pos two_pos]
  linarith

/-- one component of the moved point -/
theorem component_err (R : Rounding ℝ) {B M w a1 a2 v t U0 U1 U2 u0 u1 u2 : ℝ} (hw : |w| ≤ B) (h1 : |a1| ≤ B) (h2 : |a2| ≤ B) (hv : |v| ≤ M)
    (e0 : |u0 - U0| ≤ ((1 + R.u) ^ 3 - 1) * (4 * (B * M)) ∧ |U0| ≤ 4 * (B * M)) (e1 : |u1 - U1| ≤ ((1 + R.u) ^ 3 - 1) * (4 * (B * M)) ∧ |U1| ≤ 4 * (B * M))
    (e2 : |u2 - U2| ≤ ((1 + R.u) ^ 3 - 1) * (4 * (B * M)) ∧ |U2| ≤ 4 * (B * M)) :
    |R.rnd (R.rnd (R.rnd (v + R.rnd (w * u0)) + crossR R a1 u2 a2 u1) + t) - (v + w * U0 + (a1 * U2 - a2 * U1) + t)| ≤ ((1 + R.u) ^ 7 - 1) * ((1 + 12 * B ^ 2) * M + |t|) := by
  have h0 := R.nonneg
  have hB : 0 ≤ B := (abs_nonneg _).trans h1
  have hM : 0 ≤ M := (abs_nonneg _).trans hv
  have hg : ∀ n : Nat, 0 ≤ (1 + R.u) ^ n - 1 := fun n => by have := one_le_pow₀ (n := n) (by linarith : 1 ≤ 1 + R.u); linarith
  have hwU : |w * U0| ≤ 4 * (B ^ 2 * M) := by
    rw [abs_mul, show 4 * (B ^ 2 * M) = B * (4 * (B * M)) by ring]
    exact mul_le_mul hw e0.2 (abs_nonneg _) hB
  have p1 : |R.rnd (w * u0) - w * U0| ≤ ((1 + R.u) ^ 4 - 1) * (4 * (B ^ 2 * M)) := by
    rw [show (1 + R.u) ^ 4 - 1 = (1 + R.u) * (1 + ((1 + R.u) ^ 3 - 1)) - 1 by ring]
    refine R.err_step ?_ hwU
    rw [← mul_sub, abs_mul, show ((1 + R.u) ^ 3 - 1) * (4 * (B ^ 2 * M)) = B * (((1 + R.u) ^ 3 - 1) * (4 * (B * M))) by ring]
    exact mul_le_mul hw e0.1 (abs_nonneg _) hB
  have b2 : |v + w * U0| ≤ M + 4 * (B ^ 2 * M) := (abs_add_le _ _).trans (add_le_add hv hwU)
  have p2 : |R.rnd (v + R.rnd (w * u0)) - (v + w * U0)| ≤ ((1 + R.u) ^ 5 - 1) * (M + 4 * (B ^ 2 * M)) := by
    rw [show (1 + R.u) ^ 5 - 1 = (1 + R.u) * (1 + ((1 + R.u) ^ 4 - 1)) - 1 by ring]
    refine R.err_step ?_ b2
    rw [add_sub_add_left_eq_sub, mul_add]
    have := mul_nonneg (hg 4) hM
    linarith
  obtain ⟨p3, b3⟩ := crossR_err R h1 h2 e1.2 e2.2 (ε := (1 + R.u) ^ 3 - 1) e1.1 e2.1
  rw [show (1 + R.u) ^ 2 * (1 + ((1 + R.u) ^ 3 - 1)) - 1 = (1 + R.u) ^ 5 - 1 by ring, show 2 * (B * (4 * (B * M))) = 8 * (B ^ 2 * M) by ring] at p3
  rw [show 2 * (B * (4 * (B * M))) = 8 * (B ^ 2 * M) by ring] at b3
  have b4 : |v + w * U0 + (a1 * U2 - a2 * U1)| ≤ (1 + 12 * B ^ 2) * M := by
    have := abs_add_le (v + w * U0) (a1 * U2 - a2 * U1)
    linarith
  have p4 : |R.rnd (R.rnd (v + R.rnd (w * u0)) + crossR R a1 u2 a2 u1) - (v + w * U0 + (a1 * U2 - a2 * U1))| ≤ ((1 + R.u) ^ 6 - 1) * ((1 + 12 * B ^ 2) * M) := by
    rw [show (1 + R.u) ^ 6 - 1 = (1 + R.u) * (1 + ((1 + R.u) ^ 5 - 1)) - 1 by ring]
    refine R.err_step ?_ b4
    have : |R.rnd (v + R.rnd (w * u0)) + crossR R a1 u2 a2 u1 - (v + w * U0 + (a1 * U2 - a2 * U1))| ≤ |R.rnd (v + R.rnd (w * u0)) - (v + w * U0)| + |crossR R a1 u2 a2 u1 - (a1 * U2 - a2 * U1)| := by
      rw [add_sub_add_comm]
      exact abs_add_le _ _
    linarith
  rw [show (1 + R.u) ^ 7 - 1 = (1 + R.u) * (1 + ((1 + R.u) ^ 6 - 1)) - 1 by ring]
  refine R.err_step ?_ ((abs_add_le _ _).trans (add_le_add b4 le_rfl))
  rw [add_sub_add_right_eq_sub, mul_add]
  have := mul_nonneg (hg 6) (abs_nonneg t)
  linarith

/-- **C122** (scan points, quaternions). A point of the scan is computed where the pose puts it up to 7 roundings, relative to the distance of the point and the translation. `B` is a bound of the length of the quaternion, normally about 1. -/
theorem C122_moved (R : Rounding ℝ) (t : Fin 3 → ℝ) (q : Quat) (p : Fin 3 → ℝ) {B M : ℝ} (hB : quatNorm q ≤ B) (hp : ∀ i, |p i| ≤ M) (i : Fin 3) :
    |moved3R R t q p i - moved3 t q p i| ≤ ((1 + R.u) ^ 7 - 1) * ((1 + 12 * B ^ 2) * M + |t i|) := by
  have hw : |q.w| ≤ B := (abs_le_sqrt (by unfold quatNormSq; nlinarith [sq_nonneg q.x, sq_nonneg q.y, sq_nonneg q.z])).trans hB
  have hx : |q.x| ≤ B := (abs_le_sqrt (by unfold quatNormSq; nlinarith [sq_nonneg q.w, sq_nonneg q.y, sq_nonneg q.z])).trans hB
  have hy : |q.y| ≤ B := (abs_le_sqrt (by unfold quatNormSq; nlinarith [sq_nonneg q.x, sq_nonneg q.w, sq_nonneg q.z])).trans hB
  have hz : |q.z| ≤ B := (abs_le_sqrt (by unfold quatNormSq; nlinarith [sq_nonneg q.x, sq_nonneg q.y, sq_nonneg q.w])).trans hB
  have u0 := twice_err R hy hz (hp 1) (hp 2)
  have u1 := twice_err R hz hx (hp 2) (hp 0)
  have u2 := twice_err R hx hy (hp 0) (hp 1)
  match i with
  | 0 => exact component_err R hw hy hz (hp 0) u0 u1 u2
  | 1 => exact component_err R hw hz hx (hp 1) u1 u2 u0
  | 2 => exact component_err R hw hx hy (hp 2) u2 u0 u1

/-- rotating by two nearby quaternions -/
theorem component_lipschitz {B D M w a1 a2 w' a1' a2' v U0 U1 U2 U0' U1' U2' : ℝ} (hw' : |w'| ≤ B) (h1' : |a1'| ≤ B) (h2' : |a2'| ≤ B) (dw : |w' - w| ≤ D) (d1 : |a1' - a1| ≤ D)
    (d2 : |a2' - a2| ≤ D) (e0 : |U0' - U0| ≤ 4 * (D * M) ∧ |U0| ≤ 4 * (B * M)) (e1 : |U1' - U1| ≤ 4 * (D * M) ∧ |U1| ≤ 4 * (B * M)) (e2 : |U2' - U2| ≤ 4 * (D * M) ∧ |U2| ≤ 4 * (B * M)) :
    |(v + w' * U0' + (a1' * U2' - a2' * U1')) - (v + w * U0 + (a1 * U2 - a2 * U1))| ≤ 24 * (B * D * M) := by
  have hB : 0 ≤ B := (abs_nonneg _).trans h1'
  have hD : 0 ≤ D := (abs_nonneg _).trans d1
  have prod : ∀ {a a' U U' : ℝ}, |a'| ≤ B → |a' - a| ≤ D → |U' - U| ≤ 4 * (D * M) → |U| ≤ 4 * (B * M) → |a' * U' - a * U| ≤ 8 * (B * D * M) := by
    intro a a' U U' h d e b
    have k1 : |a' * (U' - U)| ≤ B * (4 * (D * M)) := by rw [abs_mul]; exact mul_le_mul h e (abs_nonneg _) hB
    have k2 : |(a' - a) * U| ≤ D * (4 * (B * M)) := by rw [abs_mul]; exact mul_le_mul d b (abs_nonneg _) hD
    rw [show a' * U' - a * U = a' * (U' - U) + (a' - a) * U by ring]
    have := abs_add_le (a' * (U' - U)) ((a' - a) * U)
    linarith
  have p0 := abs_le.1 (prod hw' dw e0.1 e0.2)
  have p1 := abs_le.1 (prod h1' d1 e2.1 e2.2)
  have p2 := abs_le.1 (prod h2' d2 e1.1 e1.2)
  rw [abs_le]
  constructor <;> linarith [p0.1, p0.2, p1.1, p1.2, p2.1, p2.2]

theorem twice_lipschitz {B D M a1 a2 a1' a2' b1 b2 : ℝ} (h1 : |a1| ≤ B) (h2 : |a2| ≤ B) (d1 : |a1' - a1| ≤ D) (d2 : |a2' - a2| ≤ D) (k1 : |b1| ≤ M) (k2 : |b2| ≤ M) :
    |2 * (a1' * b2 - a2' * b1) - 2 * (a1 * b2 - a2 * b1)| ≤ 4 * (D * M) ∧ |2 * (a1 * b2 - a2 * b1)| ≤ 4 * (B * M) := by
  have hB : 0 ≤ B := (abs_nonneg _).trans h1
  have hD : 0 ≤ D := (abs_nonneg _).trans d1
  have pr : ∀ {a b C : ℝ}, |a| ≤ C → |b| ≤ M → 0 ≤ C → |a * b| ≤ C * M := fun ha hb hC => by rw [abs_mul]; exact mul_le_mul ha hb (abs_nonneg _) hC
  have p1 := abs_le.1 (pr d1 k2 hD)
  have p2 := abs_le.1 (pr d2 k1 hD)
  have q1 := abs_le.1 (pr h1 k2 hB)
  have q2 := abs_le.1 (pr h2 k1 hB)
  constructor
  · rw [show 2 * (a1' * b2 - a2' * b1) - 2 * (a1 * b2 - a2 * b1) = 2 * ((a1' - a1) * b2 - (a2' - a2) * b1) by ring, abs_le]
    constructor <;> linarith [p1.1, p1.2, p2.1, p2.2]
  · rw [abs_le]
    constructor <;> linarith [q1.1, q1.2, q2.1, q2.2]

theorem rotate_lipschitz (q q' : Quat) (p : Fin 3 → ℝ) {B M : ℝ} (hB : quatNorm q ≤ B) (hB' : quatNorm q' ≤ B) (hp : ∀ i, |p i| ≤ M) (i : Fin 3) :
    |q'.rotate p i - q.rotate p i| ≤ 24 * (B * quatDist q' q * M) := by
  have bw : ∀ r : Quat, |r.w| ≤ quatNorm r := fun q => abs_le_sqrt (by unfold quatNormSq; nlinarith [sq_nonneg q.x, sq_nonneg q.y, sq_nonneg q.z])
  have bx : ∀ r : Quat, |r.x| ≤ quatNorm r := fun q => abs_le_sqrt (by unfold quatNormSq; nlinarith [sq_nonneg q.w, sq_nonneg q.y, sq_nonneg q.z])
  have by' : ∀ r : Quat, |r.y| ≤ quatNorm r := fun q => abs_le_sqrt (by unfold quatNormSq; nlinarith [sq_nonneg q.x, sq_nonneg q.w, sq_nonneg q.z])
  have bz : ∀ r : Quat, |r.z| ≤ quatNorm r := fun q => abs_le_sqrt (by unfold quatNormSq; nlinarith [sq_nonneg q.x, sq_nonneg q.y, sq_nonneg q.w])
  have e : quatDist q' q = quatNorm ⟨q'.w - q.w, q'.x - q.x, q'.y - q.y, q'.z - q.z⟩ := rfl
  have dw : |q'.w - q.w| ≤ quatDist q' q := by rw [e]; exact bw ⟨q'.w - q.w, q'.x - q.x, q'.y - q.y, q'.z - q.z⟩
  have dx : |q'.x - q.x| ≤ quatDist q' q := by rw [e]; exact bx ⟨q'.w - q.w, q'.x - q.x, q'.y - q.y, q'.z - q.z⟩
  have dy : |q'.y - q.y| ≤ quatDist q' q := by rw [e]; exact by' ⟨q'.w - q.w, q'.x - q.x, q'.y - q.y, q'.z - q.z⟩
  have dz : |q'.z - q.z| ≤ quatDist q' q := by rw [e]; exact bz ⟨q'.w - q.w, q'.x - q.x, q'.y - q.y, q'.z - q.z⟩
  have u0 := twice_lipschitz ((by' q).trans hB) ((bz q).trans hB) dy dz (hp 1) (hp 2)
  have u1 := twice_lipschitz ((bz q).trans hB) ((bx q).trans hB) dz dx (hp 2) (hp 0)
  have u2 := twice_lipschitz ((bx q).trans hB) ((by' q).trans hB) dx dy (hp 0) (hp 1)
  match i with
  | 0 => exact component_lipschitz ((bw q').trans hB') ((by' q').trans hB') ((bz q').trans hB') dw dy dz u0 u1 u2
  | 1 => exact component_lipschitz ((bw q').trans hB') ((bz q').trans hB') ((bx q').trans hB') dw dz dx u1 u2 u0
  | 2 => exact component_lipschitz ((bw q').trans hB') ((bx q').trans hB') ((by' q').trans hB') dw dx dy u2 u0 u1

/-- **C122** (scan points after an optimisation). A yaw-only optimisation that starts at a unit quaternion and makes `n` updates: every point of the scan is computed where the initial rotation followed by the sum of the yaw steps puts it, up to
`24 ((1 + 7 u)^n - 1)` and 7 roundings, relative to the distance of the point and the translation. -/
theorem C122_points (R : Rounding ℝ) (hR : Arithmetic R) (t : Fin 3 → ℝ) (q : Quat) (hq : quatNormSq q = 1) (steps : List ℝ) (p : Fin 3 → ℝ) {M ρ : ℝ} (hp : ∀ i, |p i| ≤ M) (hρ : ρ = (1 + 7 * R.u) ^ steps.length)
    (i : Fin 3) :
    |moved3R R t (yawRunR R q steps) p i - (rotZ (steps.map stepAngle).sum (q.rotate p) i + t i)| ≤ ((1 + R.u) ^ 7 - 1) * ((1 + 12 * ρ ^ 2) * M + |t i|) + 24 * (ρ * (ρ - 1) * M) := by
  have h0 := R.nonneg
  have hM : 0 ≤ M := (abs_nonneg _).trans (hp 0)
  have hρ1 : 1 ≤ ρ := by rw [hρ]; exact one_le_pow₀ (by linarith)
  have hl := abs_le.1 (C122_length R hR q hq steps)
  rw [← hρ] at hl
  have hB' : quatNorm (yawRunR R q steps) ≤ ρ := by linarith [hl.2]
  have hB : quatNorm (yawRun q steps) ≤ ρ := by rw [quatNorm, yawRun_normSq, hq, sqrt_one]; exact hρ1
  have hD := C122_updates R hR q steps
  rw [← hρ, show quatNorm q = 1 by rw [quatNorm, hq, sqrt_one], mul_one] at hD
  have k1 := C122_moved R t (yawRunR R q steps) p hB' hp i
  have k2 := rotate_lipschitz (yawRun q steps) (yawRunR R q steps) p hB hB' hp i
  have k3 : ρ * quatDist (yawRunR R q steps) (yawRun q steps) * M ≤ ρ * (ρ - 1) * M := mul_le_mul_of_nonneg_right (mul_le_mul_of_nonneg_left hD (by linarith)) hM
  rw [← yawRun_rotate q hq steps]
  have k4 := abs_sub_le (moved3R R t (yawRunR R q steps) p i) (moved3 t (yawRunR R q steps) p i) ((yawRun q steps).rotate p i + t i)
  have k5 : moved3 t (yawRunR R q steps) p i - ((yawRun q steps).rotate p i + t i) = (yawRunR R q steps).rotate p i - (yawRun q steps).rotate p i := by
    unfold moved3
    ring
  rw [k5] at k4
  linarith

/-- **C122** (scan points in 2D). `c` and `s` are the computed cosine and sine of the rotation, with errors of at most `e`. -/
theorem C122_points_2d (R : Rounding ℝ) (t : Fin 2 → ℝ) (r c s e : ℝ) (hc : |c - cos r| ≤ e) (hs : |s - sin r| ≤ e) (p : Fin 2 → ℝ) {M : ℝ} (hp : ∀ i, |p i| ≤ M) (i : Fin 2) :
    |moved2R R t c s p i - moved2 t r p i| ≤ ((1 + R.u) ^ 3 - 1) * (2 * ((1 + e) * M) + |t i|) + 2 * (e * M) := by
  have h0 := R.nonneg
  have he : 0 ≤ e := (abs_nonneg _).trans hc
  have hM : 0 ≤ M := (abs_nonneg _).trans (hp 0)
  have hg : 0 ≤ (1 + R.u) ^ 2 - 1 := by nlinarith
  have bc : |c| ≤ 1 + e := by
    have := abs_sub_abs_le_abs_sub c (cos r)
    have := abs_cos_le_one r
    linarith
  have bs : |s| ≤ 1 + e := by
    have := abs_sub_abs_le_abs_sub s (sin r)
    have := abs_sin_le_one r
    linarith
  have pr : ∀ {a C : ℝ} (j), |a| ≤ C → 0 ≤ C → |a * p j| ≤ C * M := fun j ha hC => by rw [abs_mul]; exact mul_le_mul ha (hp j) (abs_nonneg _) hC
  have h1e : 0 ≤ 1 + e := by linarith
  have key : ∀ {x y y' : ℝ} (τ : ℝ), |x - y| ≤ ((1 + R.u) ^ 2 - 1) * (2 * ((1 + e) * M)) → |y| ≤ 2 * ((1 + e) * M) → |y - y'| ≤ 2 * (e * M) →
      |R.rnd (x + τ) - (y' + τ)| ≤ ((1 + R.u) ^ 3 - 1) * (2 * ((1 + e) * M) + |τ|) + 2 * (e * M) := by
    intro x y y' τ k1 k2 k3
    have := R.err_step (x := x + τ) (y := y + τ) (A := 2 * ((1 + e) * M) + |τ|) (a := (1 + R.u) ^ 2 - 1) (by
      rw [add_sub_add_right_eq_sub, mul_add]
      have := mul_nonneg hg (abs_nonneg τ)
      linarith) ((abs_add_le _ _).trans (add_le_add k2 le_rfl))
    rw [show (1 + R.u) * (1 + ((1 + R.u) ^ 2 - 1)) - 1 = (1 + R.u) ^ 3 - 1 by ring] at this
    have k4 := abs_sub_le (R.rnd (x + τ)) (y + τ) (y' + τ)
    rw [add_sub_add_right_eq_sub] at k4
    linarith
  have a0 := pr 0 bc h1e
  have a1 := pr 1 bs h1e
  have a2 := pr 0 bs h1e
  have a3 := pr 1 bc h1e
  have d0 := pr 0 hc he
  have d1 := pr 1 hs he
  have d2 := pr 0 hs he
  have d3 := pr 1 hc he
  match i with
  | 0 =>
    refine key (y := c * p 0 - s * p 1) (t 0) ((difference_err R _ _).trans (mul_le_mul_of_nonneg_left (by linarith) hg)) ((abs_sub _ _).trans (by linarith)) ?_
    rw [show c * p 0 - s * p 1 - (cos r * p 0 - sin r * p 1) = (c - cos r) * p 0 - (s - sin r) * p 1 by ring]
    exact (abs_sub _ _).trans (by linarith)
  | 1 =>
    refine key (y := s * p 0 + c * p 1) (t 1) ((sum_err R _ _).trans (mul_le_mul_of_nonneg_left (by linarith) hg)) ((abs_add_le _ _).trans (by linarith)) ?_
    rw [show s * p 0 + c * p 1 - (sin r * p 0 + cos r * p 1) = (s - sin r) * p 0 + (c - cos r) * p 1 by ring]
    exact (abs_add_le _ _).trans (by linarith)

/-! ### Euler angles -/

/-- `x` restricted to `[-b, b]` -/
noncomputable def Spec.restrict (b x : ℝ) : ℝ := max (-b) (min b x)

/-- the exact updates, in order -/
noncomputable def Spec.angleRun (b x : ℝ) (steps : List ℝ) : ℝ := steps.foldl (fun x d => restrict b (x + d)) x

theorem clamp_restrict {b : ℝ} (hb : 0 ≤ b) (x : ℝ) : clamp x (-b) b = restrict b x := by
  unfold clamp restrict
  split_ifs with h1 h2
  · rw [min_eq_left h1.le, max_eq_right (by linarith)]
  · rw [min_eq_right (not_lt.1 h1), max_eq_left h2.le]
  · rw [min_eq_right (not_lt.1 h1), max_eq_right (not_lt.1 h2)]

theorem restrict_abs {b : ℝ} (hb : 0 ≤ b) (x : ℝ) : |restrict b x| ≤ b := by
  rw [abs_le]
  exact ⟨le_max_left _ _, max_le (by linarith) (min_le_left _ _)⟩

theorem restrict_lipschitz (b x y : ℝ) : |restrict b x - restrict b y| ≤ |x - y| := by
  unfold restrict
  refine (abs_max_sub_max_le_max _ _ _ _).trans (max_le (by simp) ?_)
  exact (abs_min_sub_min_le_max _ _ _ _).trans (max_le (by simp) le_rfl)

/-- **C122** (Euler angles). Computed updates of an angle stay exactly in the range from `-M_PI` to `M_PI`, and after `n` updates the angle differs from the exact one by at most `n` roundings of `M_PI` and one of every step. -/
theorem C122_euler (R : Rounding ℝ) (pi x : ℝ) (hx : |x| ≤ pi) (steps : List ℝ) :
    |eulerRunR R pi x steps| ≤ pi ∧ |eulerRunR R pi x steps - angleRun pi x steps| ≤ R.u * (steps.length * pi + (steps.map abs).sum) := by
  have h0 := R.nonneg
  have hp : 0 ≤ pi := (abs_nonneg _).trans hx
  induction steps using List.reverseRecOn with
  | nil => simpa [eulerRunR, angleRun] using hx
  | append_singleton l d ih =>
    obtain ⟨ih1, ih2⟩ := ih
    unfold eulerRunR at ih1
    unfold eulerRunR angleRun at ih2 ⊢
    rw [List.foldl_append, List.foldl_append, List.length_append, List.map_append, List.sum_append]
    simp only [List.foldl_cons, List.foldl_nil, List.length_cons, List.length_nil, List.map_cons, List.map_nil, List.sum_cons, List.sum_nil, zero_add, add_zero]
    set a := List.foldl (eulerPlusR R pi) x l
    set b := List.foldl (fun x d => restrict pi (x + d)) x l
    unfold eulerPlusR
    rw [clamp_restrict hp]
    refine ⟨restrict_abs hp _, (restrict_lipschitz _ _ _).trans ?_⟩
    have k1 := R.err (a + d)
    have k2 := mul_le_mul_of_nonneg_left ((abs_add_le a d).trans (add_le_add ih1 le_rfl)) h0
    have k3 : |R.rnd (a + d) - (b + d)| ≤ |R.rnd (a + d) - (a + d)| + |a - b| := by
      rw [show R.rnd (a + d) - (b + d) = R.rnd (a + d) - (a + d) + (a - b) by ring]
      exact abs_add_le _ _
    push_cast
    linarith

/-- three steps, the last of which reaches the bound -/
example : angleRun 3 0 [1, -1 / 2, 7] = 3 ∧ angleRun 3 0 [1, -1 / 2] = 1 / 2 := by
  constructor <;> norm_num [angleRun, restrict]

/-! ### Numbers of type double -/

theorem ieee_arithmetic (t : Nat) (ht : 6 ≤ t) : Arithmetic (ieee ℝ t (by omega)) where
  idem x := toBits_of_hasBits t (by omega) (C77_ieee t (by omega) x).1
  fine := by
    show ((2 : ℝ) ^ t)⁻¹ ≤ 1 / 64
    rw [inv_le_comm₀ (by positivity) (by norm_num)]
    exact (by norm_num : (1 / 64 : ℝ)⁻¹ ≤ 2 ^ 6).trans (pow_le_pow_right₀ (by norm_num) ht)

theorem pow_near_one {x : ℝ} (hx : 0 ≤ x) (n : Nat) (h : n * x ≤ 1 / 100) : (1 + x) ^ n ≤ 1 + 102 / 100 * (n * x) := by
  have h0 : 0 ≤ n * x := by positivity
  have h1 : (1 + x) ^ n ≤ exp (n * x) := by
    rw [Real.exp_nat_mul]
    have := Real.add_one_le_exp x
    exact pow_le_pow_left₀ (by linarith) (by linarith) n
  have h2 : exp (n * x) * exp (-(n * x)) = 1 := by rw [← exp_add, add_neg_cancel, exp_zero]
  have h3 := Real.add_one_le_exp (-(n * x))
  have h4 := exp_pos (n * x)
  have h5 : exp (n * x) * (1 - n * x) ≤ 1 := by
    rw [← h2]
    exact mul_le_mul_of_nonneg_left (by linarith) h4.le
  refine h1.trans ?_
  generalize exp (n * x) = e at *
  generalize (n : ℝ) * x = y at *
  by_contra hc
  push Not at hc
  nlinarith [mul_pos (sub_pos.2 hc) (by linarith : 0 < 1 - y), mul_nonneg h0 (by linarith : 0 ≤ 1 / 100 - y)]

/-- **C122** (an instance). With numbers of type double, as ceres uses them: up to a million yaw-only updates change the length of a unit quaternion by less than `10^-9`; and scan points within 10 m of the sensor, at positions of the sensor within
100 m, are computed with an error of less than a micrometre. -/
theorem C122_double (q : Quat) (hq : quatNormSq q = 1) (steps : List ℝ) (hn : steps.length ≤ 10 ^ 6) :
    |quatNorm (yawRunR (ieee ℝ 53 (by norm_num)) q steps) - 1| < 1 / 10 ^ 9 ∧
    ∀ t p : Fin 3 → ℝ, (∀ i, |t i| ≤ 100) → (∀ i, |p i| ≤ 10) → ∀ i,
      |moved3R (ieee ℝ 53 (by norm_num)) t (yawRunR (ieee ℝ 53 (by norm_num)) q steps) p i - (rotZ (steps.map stepAngle).sum (q.rotate p) i + t i)| < 1 / 10 ^ 6 := by
  set R := ieee ℝ 53 (by norm_num) with hRdef
  have hR : Arithmetic R := ieee_arithmetic 53 (by norm_num)
  have hu : R.u = 1 / 9007199254740992 := by
    show ((2 : ℝ) ^ 53)⁻¹ = _
    norm_num
  have hn' : (steps.length : ℝ) ≤ 10 ^ 6 := by exact_mod_cast hn
  have b0 : (steps.length : ℝ) * (7 * R.u) ≤ 10 ^ 6 * (7 * (1 / 9007199254740992)) := by
    rw [hu]
    exact mul_le_mul_of_nonneg_right hn' (by norm_num)
  have b1 := pow_near_one (x := 7 * R.u) (by rw [hu]; norm_num) steps.length (b0.trans (by norm_num))
  set ρ := (1 + 7 * R.u) ^ steps.length with hρ
  have hρ1 : 1 ≤ ρ := one_le_pow₀ (by rw [hu]; norm_num)
  have hρ2 : ρ ≤ 1 + 80 / 10 ^ 11 := by
    refine b1.trans ?_
    have := mul_le_mul_of_nonneg_left b0 (by norm_num : (0 : ℝ) ≤ 102 / 100)
    refine (add_le_add le_rfl this).trans ?_
    norm_num
  constructor
  · refine (C122_length R hR q hq steps).trans_lt ?_
    rw [← hρ]
    have : (1 : ℝ) / 10 ^ 9 = 100 / 10 ^ 11 := by norm_num
    linarith [hρ2, (by norm_num : (80 : ℝ) / 10 ^ 11 < 100 / 10 ^ 11)]
  · intro t p ht hp i
    refine (C122_points R hR t q hq steps p hp hρ i).trans_lt ?_
    have k1 : (1 + R.u) ^ 7 - 1 ≤ 1 / 10 ^ 15 := by rw [hu]; norm_num
    have k0 : 0 ≤ (1 + R.u) ^ 7 - 1 := by rw [hu]; norm_num
    have k2 : (1 + 12 * ρ ^ 2) * 10 + |t i| ≤ 1000 := by
      have : ρ ^ 2 ≤ 2 := by nlinarith
      linarith [ht i]
    have k3 : ((1 + R.u) ^ 7 - 1) * ((1 + 12 * ρ ^ 2) * 10 + |t i|) ≤ 1 / 10 ^ 15 * 1000 :=
      mul_le_mul k1 k2 (by positivity) (by norm_num)
    have k4 : ρ * (ρ - 1) ≤ (1 + 80 / 10 ^ 11) * (80 / 10 ^ 11) := mul_le_mul hρ2 (by linarith) (by linarith) (by norm_num)
    have k5 : 24 * (ρ * (ρ - 1) * 10) ≤ 240 * ((1 + 80 / 10 ^ 11) * (80 / 10 ^ 11)) := by linarith
    refine (add_le_add k3 k5).trans_lt ?_
    norm_num

/-- The bound cannot be 0: a single step of 1/2 from the identity gives a quaternion whose length is not 1, in every binary format. -/
theorem C122_not_unit (t : Nat) (ht : 6 ≤ t) : quatNormSq (yawRunR (ieee ℝ t (by omega)) ⟨1, 0, 0, 0⟩ [1 / 2]) ≠ 1 := by
  set R := ieee ℝ t (by omega) with hRdef
  have hR := ieee_arithmetic t ht
  have hb : ∀ x, ∃ r : ℚ, R.rnd x = r := by
    intro x
    obtain ⟨m, e, -, he⟩ := (C77_ieee (K := ℝ) t (by omega) x).1
    exact ⟨m * 2 ^ e, by rw [show R.rnd x = toBits t x from rfl, he]; push_cast; ring⟩
  have hc : clamp (1 / 2 : ℝ) (-(1 / 2)) (1 / 2) = 1 / 2 := clamp_of_mem (by norm_num) (by norm_num)
  obtain ⟨r, hr⟩ := hb (√(R.rnd (1 - R.rnd (1 / 2 * (1 / 2)))))
  have h2 : R.rnd (1 / 2) = 1 / 2 := by
    have := toBits_two_pow (K := ℝ) t (by omega) (-1)
    rw [show (2 : ℝ) ^ (-1 : ℤ) = 1 / 2 by norm_num] at this
    exact this
  have hrr : R.rnd (r : ℝ) = r := by rw [← hr, hR.idem]
  have e : yawRunR R ⟨1, 0, 0, 0⟩ [1 / 2] = ⟨r, 0, 0, 1 / 2⟩ := by
    unfold yawRunR yawOnlyQuatPlusR
    simp only [List.foldl_cons, List.foldl_nil]
    rw [hc, yawR_eq R hR.idem]
    simp only [hr, mul_one, mul_zero, R.zero, sub_zero, add_zero, zero_add, h2, hrr]
  rw [e]
  unfold quatNormSq
  dsimp only
  intro h
  have h3 : (2 * (r : ℝ)) ^ 2 = 3 := by linarith
  have hirr : Irrational √(3 : ℝ) := by
    have := Nat.Prime.irrational_sqrt Nat.prime_three
    exact_mod_cast this
  refine hirr ⟨|2 * r|, ?_⟩
  rw [← h3, sqrt_sq_eq_abs]
  push_cast [Rat.cast_abs]
  rfl

end Ndt
