import Verif.Model.PoseRoundedRPY
import Verif.Props.PriorRounded
import Verif.Props.Quaternions

/-! Property theorem C122 for scan matching with roll, pitch and yaw: scan points are computed close to where the angles put them. -/

namespace Ndt

open Real Matching Spec

theorem factor_step {x x' y y' k : ℝ} {e : ℝ} (hk : 1 ≤ k) (hx : |x' - x| ≤ k - 1) (h1 : |x| ≤ 1) (hy : |y' - y| ≤ e) (h2 : |y| ≤ 1) : |x' * y' - x * y| ≤ k * (1 + e) - 1 := by
  have he : 0 ≤ e := (abs_nonneg _).trans hy
  have t : x' * y' - x * y = (x' - x) * y' + x * (y' - y) := by ring
  have hy' : |y'| ≤ 1 + e := by linarith [abs_sub_abs_le_abs_sub y' y]
  rw [t]
  refine (abs_add_le _ _).trans ?_
  rw [abs_mul, abs_mul]
  have a1 := mul_le_mul hx hy' (abs_nonneg _) (by linarith)
  have a2 := mul_le_mul h1 hy (abs_nonneg _) zero_le_one
  linarith

theorem round_step (R : Rounding ℝ) {x x' k : ℝ} (hx : |x' - x| ≤ k - 1) (h1 : |x| ≤ 1) : |R.rnd x' - x| ≤ k * (1 + R.u) - 1 := by
  have h2 : |x'| ≤ k := by linarith [abs_sub_abs_le_abs_sub x' x]
  have h3 := abs_add_le (R.rnd x' - x') (x' - x)
  rw [sub_add_sub_cancel] at h3
  have h4 := R.err x'
  have h5 := mul_le_mul_of_nonneg_left h2 R.nonneg
  linarith

theorem one_mul_one {x y : ℝ} (hx : |x| ≤ 1) (hy : |y| ≤ 1) : |x * y| ≤ 1 := by
  rw [abs_mul]
  exact mul_le_one₀ hx (abs_nonneg _) hy

/-- a product of three sines and cosines -/
theorem product3_err (R : Rounding ℝ) {e a b c a' b' c' : ℝ} (ha : |a' - a| ≤ e) (hb : |b' - b| ≤ e) (hc : |c' - c| ≤ e) (a1 : |a| ≤ 1) (b1 : |b| ≤ 1) (c1 : |c| ≤ 1) :
    |product3R R a' b' c' - a * b * c| ≤ (1 + e) ^ 3 * (1 + R.u) ^ 2 - 1 := by
  have he : 0 ≤ e := (abs_nonneg _).trans ha
  have hu := R.nonneg
  have s1 := factor_step (k := 1 + e) (by linarith) (by linarith) a1 hb b1
  have s2 := round_step R s1 (one_mul_one a1 b1)
  have s3 := factor_step (k := (1 + e) * (1 + e) * (1 + R.u)) (by nlinarith [mul_nonneg he he, mul_nonneg (mul_nonneg he he) hu, mul_nonneg he hu]) s2 (one_mul_one a1 b1) hc c1
  have s4 := round_step R s3 (one_mul_one (one_mul_one a1 b1) c1)
  refine s4.trans (le_of_eq ?_)
  ring

theorem combine_err (R : Rounding ℝ) {k x x' y y' : ℝ} (hk : 1 ≤ k) (hx : |x' - x| ≤ k - 1) (hy : |y' - y| ≤ k - 1) (x1 : |x| ≤ 1) (y1 : |y| ≤ 1) :
    |R.rnd (x' + y') - (x + y)| ≤ 2 * (k * (1 + R.u) - 1) ∧ |R.rnd (x' - y') - (x - y)| ≤ 2 * (k * (1 + R.u) - 1) := by
  have bx : |x'| ≤ k := by linarith [abs_sub_abs_le_abs_sub x' x]
  have by' : |y'| ≤ k := by linarith [abs_sub_abs_le_abs_sub y' y]
  have hu := R.nonneg
  rw [abs_le] at hx hy
  constructor
  · have h1 := R.err (x' + y')
    have h2 := mul_le_mul_of_nonneg_left ((abs_add_le x' y').trans (add_le_add bx by')) hu
    have h3 := abs_le.1 (h1.trans h2)
    rw [abs_le]
    constructor <;> linarith [hx.1, hx.2, hy.1, hy.2, h3.1, h3.2]
  · have h1 := R.err (x' - y')
    have h2 := mul_le_mul_of_nonneg_left ((abs_sub x' y').trans (add_le_add bx by')) hu
    have h3 := abs_le.1 (h1.trans h2)
    rw [abs_le]
    constructor <;> linarith [hx.1, hx.2, hy.1, hy.2, h3.1, h3.2]

/-- the quaternion of roll, pitch and yaw, computed from numbers of the type -/
theorem toEigenR_err (R : Rounding ℝ) {L : LibM} {pi e : ℝ} (hL : Accurate L pi e) (rpy : Fin 3 → ℝ) (hh : ∀ i, R.rnd (rpy i * (1 / 2)) = rpy i * (1 / 2)) :
    quatDist (toEigenR R L rpy) (toEigen rpy) ≤ 4 * ((1 + e) ^ 3 * (1 + R.u) ^ 3 - 1) := by
  have he := accurate_nonneg hL
  have hu := R.nonneg
  have k1 : 1 ≤ (1 + e) ^ 3 * (1 + R.u) ^ 2 := one_le_mul_of_one_le_of_one_le (one_le_pow₀ (by linarith)) (one_le_pow₀ (by linarith))
  have e3 : (1 + e) ^ 3 * (1 + R.u) ^ 2 * (1 + R.u) = (1 + e) ^ 3 * (1 + R.u) ^ 3 := by ring
  have s1 := fun x => abs_sin_le_one x
  have c1 := fun x => abs_cos_le_one x
  have P : ∀ {a b c a' b' c' : ℝ}, |a' - a| ≤ e → |b' - b| ≤ e → |c' - c| ≤ e → |a| ≤ 1 → |b| ≤ 1 → |c| ≤ 1 → |product3R R a' b' c' - a * b * c| ≤ (1 + e) ^ 3 * (1 + R.u) ^ 2 - 1 :=
    fun ha hb hc a1 b1 c1 => product3_err R ha hb hc a1 b1 c1
  have O : ∀ {a b c : ℝ}, |a| ≤ 1 → |b| ≤ 1 → |c| ≤ 1 → |a * b * c| ≤ 1 := fun a1 b1 c1 => one_mul_one (one_mul_one a1 b1) c1
  set D := (1 + e) ^ 3 * (1 + R.u) ^ 3 - 1 with hD
  have hw : |(toEigenR R L rpy).w - (toEigen rpy).w| ≤ 2 * D := by
    unfold toEigenR toEigen
    simp only [hh]
    rw [hD, ← e3]
    exact (combine_err R k1 (P (hL.cos _) (hL.cos _) (hL.cos _) (c1 _) (c1 _) (c1 _)) (P (hL.sin _) (hL.sin _) (hL.sin _) (s1 _) (s1 _) (s1 _)) (O (c1 _) (c1 _) (c1 _)) (O (s1 _) (s1 _) (s1 _))).1
  have hx : |(toEigenR R L rpy).x - (toEigen rpy).x| ≤ 2 * D := by
    unfold toEigenR toEigen
    simp only [hh]
    rw [hD, ← e3]
    exact (combine_err R k1 (P (hL.sin _) (hL.cos _) (hL.cos _) (s1 _) (c1 _) (c1 _)) (P (hL.cos _) (hL.sin _) (hL.sin _) (c1 _) (s1 _) (s1 _)) (O (s1 _) (c1 _) (c1 _)) (O (c1 _) (s1 _) (s1 _))).2
  have hy : |(toEigenR R L rpy).y - (toEigen rpy).y| ≤ 2 * D := by
    unfold toEigenR toEigen
    simp only [hh]
    rw [hD, ← e3]
    exact (combine_err R k1 (P (hL.cos _) (hL.sin _) (hL.cos _) (c1 _) (s1 _) (c1 _)) (P (hL.sin _) (hL.cos _) (hL.sin _) (s1 _) (c1 _) (s1 _)) (O (c1 _) (s1 _) (c1 _)) (O (s1 _) (c1 _) (s1 _))).1
  have hz : |(toEigenR R L rpy).z - (toEigen rpy).z| ≤ 2 * D := by
    unfold toEigenR toEigen
    simp only [hh]
    rw [hD, ← e3]
    exact (combine_err R k1 (P (hL.cos _) (hL.cos _) (hL.sin _) (c1 _) (c1 _) (s1 _)) (P (hL.sin _) (hL.sin _) (hL.cos _) (s1 _) (s1 _) (c1 _)) (O (c1 _) (c1 _) (s1 _)) (O (s1 _) (s1 _) (c1 _))).2
  have hD0 : 0 ≤ D := by linarith [(abs_nonneg _).trans hw]
  unfold quatDist
  apply Real.sqrt_le_iff.2 ⟨by linarith, ?_⟩
  have q : ∀ x : ℝ, |x| ≤ 2 * D → x ^ 2 ≤ 4 * D ^ 2 := fun x h => by
    have := sq_le_sq' (abs_le.1 h).1 (abs_le.1 h).2
    nlinarith
  linarith [q _ hw, q _ hx, q _ hy, q _ hz]

/-- **C122** (scan points with roll, pitch and yaw). For angles whose halves are numbers of the type, sines and cosines with errors of at most `e`: every point of the scan is computed where roll, pitch and yaw, applied in this order, and the translation
put it, up to an error relative to the distance of the point and the translation. -/
theorem C122_points_rpy (R : Rounding ℝ) {L : LibM} {pi e : ℝ} (hL : Accurate L pi e) (t rpy : Fin 3 → ℝ) (hh : ∀ i, R.rnd (rpy i * (1 / 2)) = rpy i * (1 / 2)) (p : Fin 3 → ℝ) {M D : ℝ} (hp : ∀ i, |p i| ≤ M)
    (hD : D = 4 * ((1 + e) ^ 3 * (1 + R.u) ^ 3 - 1)) (i : Fin 3) :
    |movedRPYR R L t rpy p i - (rotZ (rpy 2) (rotY (rpy 1) (rotX (rpy 0) p)) i + t i)| ≤ ((1 + R.u) ^ 7 - 1) * ((1 + 12 * (1 + D) ^ 2) * M + |t i|) + 24 * ((1 + D) * D * M) := by
  have hM : 0 ≤ M := (abs_nonneg _).trans (hp 0)
  have hd := toEigenR_err R hL rpy hh
  rw [← hD] at hd
  have hD0 : 0 ≤ D := (quatDist_nonneg _ _).trans hd
  have hn : quatNorm (toEigen rpy) = 1 := by
    unfold quatNorm
    rw [(C63_rpy t rpy p).1, sqrt_one]
  have hB' : quatNorm (toEigenR R L rpy) ≤ 1 + D := by
    have := quatNorm_le (toEigenR R L rpy) (toEigen rpy)
    linarith
  have k1 := C122_moved R t (toEigenR R L rpy) p hB' hp i
  have k2 := rotate_lipschitz (toEigen rpy) (toEigenR R L rpy) p (by linarith) hB' hp i
  have k3 : (1 + D) * quatDist (toEigenR R L rpy) (toEigen rpy) * M ≤ (1 + D) * D * M := mul_le_mul_of_nonneg_right (mul_le_mul_of_nonneg_left hd (by linarith)) hM
  rw [show rotZ (rpy 2) (rotY (rpy 1) (rotX (rpy 0) p)) i + t i = (toEigen rpy).rotate p i + t i from (congrFun (C63_rpy t rpy p).2 i).symm]
  have k4 := abs_sub_le (moved3R R t (toEigenR R L rpy) p i) (moved3 t (toEigenR R L rpy) p i) ((toEigen rpy).rotate p i + t i)
  have k5 : moved3 t (toEigenR R L rpy) p i - ((toEigen rpy).rotate p i + t i) = (toEigenR R L rpy).rotate p i - (toEigen rpy).rotate p i := by
    unfold moved3
    ring
  rw [k5] at k4
  unfold movedRPYR
  linarith

/-- **C122** (an instance). In double, with sines and cosines that are accurate up to `2^-50`: scan points within 10 m of the sensor, at positions of the sensor within 100 m, are computed with an error of less than `10^-11` m, for all angles. -/
theorem C122_double_rpy (L : LibM) (hL : Accurate L mPi (1 / 2 ^ 50)) (t rpy : Fin 3 → ℝ) (hh : ∀ i, toBits 53 (rpy i) = rpy i) (p : Fin 3 → ℝ) (ht : ∀ i, |t i| ≤ 100) (hp : ∀ i, |p i| ≤ 10) (i : Fin 3) :
    |movedRPYR (ieee ℝ 53 (by norm_num)) L t rpy p i - (rotZ (rpy 2) (rotY (rpy 1) (rotX (rpy 0) p)) i + t i)| < 1 / 10 ^ 11 := by
  have half : ∀ i, (ieee ℝ 53 (by norm_num)).rnd (rpy i * (1 / 2)) = rpy i * (1 / 2) := fun i => by
    have := toBits_scale 53 (rpy i) (-1)
    rw [hh, zpow_neg, zpow_one, ← one_div] at this
    exact this
  refine lt_of_le_of_lt (C122_points_rpy (ieee ℝ 53 (by norm_num)) hL t rpy half p hp rfl i) ?_
  have hu : (ieee ℝ 53 (by norm_num)).u = ((2 : ℝ) ^ 53)⁻¹ := rfl
  rw [hu]
  have := ht i
  norm_num at *
  linarith

/-- the hypotheses are met by correctly rounded functions; a scan point at (5, -3, 2), turned by one radian about each axis -/
example (i : Fin 3) : |movedRPYR (ieee ℝ 53 (by norm_num)) roundedLibM ![50, 60, 1] ![1, 1, 1] ![5, -3, 2] i - (rotZ 1 (rotY 1 (rotX 1 ![5, -3, 2])) i + ![50, 60, 1] i)| < 1 / 10 ^ 11 := by
  refine C122_double_rpy roundedLibM roundedLibM_accurate _ ![1, 1, 1] ?_ _ ?_ ?_ i
  · have := toBits_two_pow (K := ℝ) 53 (by norm_num) 0
    rw [zpow_zero] at this
    intro i; fin_cases i <;> exact this
  · intro i; fin_cases i <;> norm_num
  · intro i; fin_cases i <;> norm_num

end Ndt
