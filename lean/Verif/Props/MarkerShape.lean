import Verif.Props.Export
import Verif.Props.Quaternions
import Verif.Spec.MarkerShape
import Verif.Props.Continuity
import Mathlib.LinearAlgebra.Matrix.NonsingularInverse
import Mathlib.Algebra.Order.Chebyshev
import Mathlib.Tactic.LinearCombination

/-!
C107: the markers show the covariances of the distributions.
-/

namespace Ndt

open Real Matching Spec

/-! #### ellipsoids and decompositions -/

section
variable {d : Nat} {S : Fin d → Fin d → ℝ} {l : Fin d → ℝ} {E : Fin d → Fin d → ℝ}

theorem rows_of_columns (h : ∀ i j, ∑ k, E k i * E k j = if i = j then 1 else 0) (i j : Fin d) : ∑ k, E i k * E j k = if i = j then 1 else 0 := by
  have h1 : (Matrix.of E).transpose * Matrix.of E = 1 := by
    ext a b
    rw [Matrix.mul_apply, Matrix.one_apply]
    simpa [Matrix.transpose_apply] using h a b
  have h2 := mul_eq_one_comm.1 h1
  have h3 := congrFun (congrFun h2 i) j
  rw [Matrix.mul_apply, Matrix.one_apply] at h3
  simpa [Matrix.transpose_apply] using h3

theorem decomposes_rows (h : Decomposes S l E) (i j : Fin d) : ∑ k, E i k * E j k = if i = j then 1 else 0 := rows_of_columns h.unit i j

/-- the coordinates with respect to the eigenvectors -/
theorem decomposes_expand (h : Decomposes S l E) (x : Fin d → ℝ) (i : Fin d) : x i = ∑ k, E i k * ∑ j, E j k * x j := by
  simp only [Finset.mul_sum]
  rw [Finset.sum_comm]
  have : ∀ j, ∑ k, E i k * (E j k * x j) = (if i = j then 1 else 0) * x j := fun j => by
    rw [← decomposes_rows h, Finset.sum_mul]; exact Finset.sum_congr rfl fun k _ => by ring
  simp [this]

theorem decomposes_sum (h : Decomposes S l E) (i j : Fin d) : S i j = ∑ k, E i k * l k * E j k := by
  have h1 : ∑ k, E i k * l k * E j k = ∑ k, (∑ m, S i m * E m k) * E j k := Finset.sum_congr rfl fun k _ => by rw [h.vectors]; ring
  rw [h1]
  simp only [Finset.sum_mul]
  rw [Finset.sum_comm]
  have : ∀ m, ∑ k, S i m * E m k * E j k = S i m * if m = j then 1 else 0 := fun m => by
    rw [← decomposes_rows h, Finset.mul_sum]; exact Finset.sum_congr rfl fun k _ => by ring
  simp [this]

/-- the variance in the direction `n` -/
theorem decomposes_form (h : Decomposes S l E) (n : Fin d → ℝ) : ∑ i, ∑ j, n i * S i j * n j = ∑ k, l k * (∑ i, n i * E i k) ^ 2 := by
  have h1 : ∀ i j, n i * S i j * n j = ∑ k, l k * ((n i * E i k) * (n j * E j k)) := fun i j => by
    rw [decomposes_sum h, Finset.mul_sum, Finset.sum_mul]; exact Finset.sum_congr rfl fun k _ => by ring
  simp only [h1]
  have h2 : ∀ k, l k * (∑ i, n i * E i k) ^ 2 = ∑ i, ∑ j, l k * ((n i * E i k) * (n j * E j k)) := fun k => by
    rw [sq, Finset.sum_mul_sum, Finset.mul_sum]; exact Finset.sum_congr rfl fun i _ => Finset.mul_sum _ _ _
  simp only [h2]
  rw [show ∑ i, ∑ j, ∑ k, l k * ((n i * E i k) * (n j * E j k)) = ∑ i, ∑ k, ∑ j, l k * ((n i * E i k) * (n j * E j k)) from Finset.sum_congr rfl fun i _ => Finset.sum_comm]
  exact Finset.sum_comm

theorem ellipsoid_of_ball (h : Decomposes S l E) (u : Fin d → ℝ) (hu : ∑ i, u i ^ 2 ≤ 1) : (fun i => ∑ k, E i k * (√(l k) * u k)) ∈ Ellipsoid S := by
  intro n
  have h1 : ∑ i, n i * ∑ k, E i k * (√(l k) * u k) = ∑ k, (√(l k) * ∑ i, n i * E i k) * u k := by
    simp only [Finset.mul_sum, Finset.sum_mul]
    rw [Finset.sum_comm]
    exact Finset.sum_congr rfl fun k _ => Finset.sum_congr rfl fun i _ => by ring
  have h2 := Finset.sum_mul_sq_le_sq_mul_sq Finset.univ (fun k => √(l k) * ∑ i, n i * E i k) u
  have h3 : ∑ k, (√(l k) * ∑ i, n i * E i k) ^ 2 = ∑ i, ∑ j, n i * S i j * n j := by
    rw [decomposes_form h]
    exact Finset.sum_congr rfl fun k _ => by rw [mul_pow, sq_sqrt (h.nonneg k)]
  dsimp only
  rw [h1]
  refine h2.trans ?_
  rw [← h3]
  exact mul_le_of_le_one_right (Finset.sum_nonneg fun _ _ => sq_nonneg _) hu

theorem ball_of_ellipsoid (h : Decomposes S l E) (r : Fin d → ℝ) (hr : ∀ k, √(l k) ≤ r k) (hr0 : ∀ k, 0 < r k) (x : Fin d → ℝ) (hx : x ∈ Ellipsoid S) :
    ∃ u : Fin d → ℝ, ∑ i, u i ^ 2 ≤ 1 ∧ x = fun i => ∑ k, E i k * (r k * u k) := by
  set y : Fin d → ℝ := fun k => ∑ j, E j k * x j with hy
  refine ⟨fun k => y k / r k, ?_, ?_⟩
  · set A := ∑ k, (y k / r k) ^ 2 with hA
    have h1 := hx fun i => ∑ k, E i k * (y k / r k ^ 2)
    have h2 : ∑ i, (∑ k, E i k * (y k / r k ^ 2)) * x i = A := by
      simp only [Finset.sum_mul]
      rw [Finset.sum_comm, hA]
      refine Finset.sum_congr rfl fun k _ => ?_
      have : ∑ i, E i k * (y k / r k ^ 2) * x i = y k / r k ^ 2 * y k := by
        rw [hy, Finset.mul_sum]; exact Finset.sum_congr rfl fun i _ => by ring
      rw [this]; ring
    have h3 : ∀ k, ∑ i, (∑ m, E i m * (y m / r m ^ 2)) * E i k = y k / r k ^ 2 := fun k => by
      simp only [Finset.sum_mul]
      rw [Finset.sum_comm]
      have : ∀ m, ∑ i, E i m * (y m / r m ^ 2) * E i k = (if m = k then 1 else 0) * (y m / r m ^ 2) := fun m => by
        rw [← h.unit, Finset.sum_mul]; exact Finset.sum_congr rfl fun i _ => by ring
      simp [this]
    rw [h2, decomposes_form h] at h1
    have h4 : ∑ k, l k * (∑ i, (∑ m, E i m * (y m / r m ^ 2)) * E i k) ^ 2 ≤ A := by
      rw [hA]
      refine Finset.sum_le_sum fun k _ => ?_
      rw [h3 k]
      have hp : (0 : ℝ) < r k ^ 2 := pow_pos (hr0 k) 2
      have hl : l k ≤ r k ^ 2 := by
        rw [← sq_sqrt (h.nonneg k)]; exact pow_le_pow_left₀ (sqrt_nonneg _) (hr k) 2
      calc l k * (y k / r k ^ 2) ^ 2 ≤ r k ^ 2 * (y k / r k ^ 2) ^ 2 := mul_le_mul_of_nonneg_right hl (sq_nonneg _)
        _ = (y k / r k) ^ 2 := by field_simp
    have h5 : A ^ 2 ≤ A := h1.trans h4
    nlinarith
  · funext i
    rw [decomposes_expand h x i]
    refine Finset.sum_congr rfl fun k _ => ?_
    rw [mul_div_cancel₀ _ (hr0 k).ne']

theorem orthonormal_sum (h : Decomposes S l E) (z : Fin d → ℝ) : ∑ i, (∑ k, E i k * z k) ^ 2 = ∑ k, z k ^ 2 := by
  have h2 : ∀ i, (∑ k, E i k * z k) ^ 2 = ∑ k, ∑ m, E i k * E i m * (z k * z m) := fun i => by
    rw [sq, Finset.sum_mul_sum]; exact Finset.sum_congr rfl fun k _ => Finset.sum_congr rfl fun m _ => by ring
  simp only [h2]
  rw [Finset.sum_comm]
  refine Finset.sum_congr rfl fun k _ => ?_
  rw [Finset.sum_comm]
  have : ∀ m, ∑ i, E i k * E i m * (z k * z m) = (if k = m then 1 else 0) * (z k * z m) := fun m => by rw [← h.unit, Finset.sum_mul]
  simp [this, sq]

/-- the ball stretched by `max (e / 2) √l` along the eigenvectors -/
theorem shows_ellipsoid (h : Decomposes S l E) (e : ℝ) (he : 0 < e) (T : (Fin d → ℝ) → Fin d → ℝ) (mean : Fin d → ℝ) (shown : Set (Fin d → ℝ))
    (hs : shown = {p | ∃ u : Fin d → ℝ, ∑ i, u i ^ 2 ≤ 1 ∧ p = T (mean + fun i => ∑ k, E i k * (max e (2 * √(l k)) / 2 * u k))}) : ShowsEllipsoid e T mean S shown := by
  have hmax : ∀ k, √(l k) ≤ max e (2 * √(l k)) / 2 := fun k => by have := le_max_right e (2 * √(l k)); linarith
  have hpos : ∀ k, 0 < max e (2 * √(l k)) / 2 := fun k => by have := le_max_left e (2 * √(l k)); linarith
  subst hs
  refine ⟨fun x hx => ?_, ?_, ?_⟩
  · obtain ⟨u, hu, rfl⟩ := ball_of_ellipsoid h _ hmax hpos x hx
    exact ⟨u, hu, rfl⟩
  · rintro p ⟨u, hu, rfl⟩
    refine ⟨_, ellipsoid_of_ball h u hu, fun i => ∑ k, E i k * ((max e (2 * √(l k)) / 2 - √(l k)) * u k), ?_, ?_⟩
    · rw [orthonormal_sum h fun k => (max e (2 * √(l k)) / 2 - √(l k)) * u k]
      calc ∑ k, ((max e (2 * √(l k)) / 2 - √(l k)) * u k) ^ 2 ≤ ∑ k, (e / 2) ^ 2 * u k ^ 2 := by
            refine Finset.sum_le_sum fun k _ => ?_
            rw [mul_pow]
            refine mul_le_mul_of_nonneg_right (pow_le_pow_left₀ (sub_nonneg.2 (hmax k)) ?_ 2) (sq_nonneg _)
            rcases max_cases e (2 * √(l k)) with ⟨hm, _⟩ | ⟨hm, _⟩ <;> rw [hm]
            · have := sqrt_nonneg (l k); linarith
            · have := he.le; linarith
        _ = (e / 2) ^ 2 * ∑ k, u k ^ 2 := (Finset.mul_sum _ _ _).symm
        _ ≤ (e / 2) ^ 2 := mul_le_of_le_one_right (sq_nonneg _) hu
    · congr 2
      funext i
      show _ = (∑ k, E i k * (√(l k) * u k)) + _
      rw [← Finset.sum_add_distrib]
      exact Finset.sum_congr rfl fun k _ => by ring
  · rintro hn p ⟨u, hu, rfl⟩
    refine ⟨_, ellipsoid_of_ball h u hu, ?_⟩
    congr 2
    funext i
    refine Finset.sum_congr rfl fun k _ => ?_
    have h1 := hn fun i => E i k
    rw [decomposes_form h] at h1
    have h2 : ∀ m, ∑ i, E i k * E i m = if k = m then 1 else 0 := fun m => h.unit k m
    have h3 : ∑ i, E i k ^ 2 = 1 := by rw [← if_pos (c := k = k) (t := (1 : ℝ)) (e := 0) rfl, ← h.unit k k]; exact Finset.sum_congr rfl fun i _ => sq _
    simp only [h2, h3, mul_one] at h1
    have h4 : (e / 2) ^ 2 ≤ l k := by simpa using h1
    have h5 : e / 2 ≤ √(l k) := le_sqrt_of_sq_le h4
    rw [max_eq_right (by linarith)]
    ring

end

/-! #### the quaternion of a rotation matrix -/

/-- the products of the components of the quaternion of a rotation matrix, in terms of the matrix -/
structure RotProducts (q : Quat) (m : Fin 3 → Fin 3 → ℝ) : Prop where
  ww : 4 * (q.w * q.w) = 1 + m 0 0 + m 1 1 + m 2 2
  xx : 4 * (q.x * q.x) = 1 + m 0 0 - m 1 1 - m 2 2
  yy : 4 * (q.y * q.y) = 1 - m 0 0 + m 1 1 - m 2 2
  zz : 4 * (q.z * q.z) = 1 - m 0 0 - m 1 1 + m 2 2
  wx : 4 * (q.w * q.x) = m 2 1 - m 1 2
  wy : 4 * (q.w * q.y) = m 0 2 - m 2 0
  wz : 4 * (q.w * q.z) = m 1 0 - m 0 1
  xy : 4 * (q.x * q.y) = m 1 0 + m 0 1
  xz : 4 * (q.x * q.z) = m 2 0 + m 0 2
  yz : 4 * (q.y * q.z) = m 2 1 + m 1 2

theorem pivot_mul {t n a b c : ℝ} (ht : t = √n) (hn : 0 < n) (h : a * b = n * c) : 4 * ((a * (1 / 2 / t)) * (b * (1 / 2 / t))) = c := by
  have h1 : t * t = n := by rw [ht]; exact mul_self_sqrt hn.le
  have h2 : t ≠ 0 := by rw [ht]; exact (sqrt_pos.2 hn).ne'
  have : 4 * ((a * (1 / 2 / t)) * (b * (1 / 2 / t))) = a * b / (t * t) := by field_simp; ring
  rw [this, h1, h, mul_div_cancel_left₀ _ hn.ne']

theorem pivot_self {t n : ℝ} (ht : t = √n) (hn : 0 < n) : 4 * ((1 / 2 * t) * (1 / 2 * t)) = n := by
  have h1 : t * t = n := by rw [ht]; exact mul_self_sqrt hn.le
  linear_combination h1

theorem pivot_one {t n a : ℝ} (ht : t = √n) (hn : 0 < n) : 4 * ((1 / 2 * t) * (a * (1 / 2 / t))) = a := by
  have h2 : t ≠ 0 := by rw [ht]; exact (sqrt_pos.2 hn).ne'
  field_simp
  ring

theorem pivot_one' {t n a : ℝ} (ht : t = √n) (hn : 0 < n) : 4 * ((a * (1 / 2 / t)) * (1 / 2 * t)) = a := by
  rw [mul_comm (a * _)]; exact pivot_one ht hn

/-- the products of the entries of a rotation matrix that the four cases of the conversion rely on -/
theorem rotation_minors {a b c d e f g h i : ℝ} (c00 : a * a + d * d + g * g = 1) (c11 : b * b + e * e + h * h = 1) (c22 : c * c + f * f + i * i = 1) (c01 : a * b + d * e + g * h = 0) (c02 : a * c + d * f + g * i = 0)
    (c12 : b * c + e * f + h * i = 0) (r00 : a * a + b * b + c * c = 1) (r11 : d * d + e * e + f * f = 1) (r22 : g * g + h * h + i * i = 1) (r01 : a * d + b * e + c * f = 0) (r02 : a * g + b * h + c * i = 0)
    (r12 : d * g + e * h + f * i = 0) (hdet : a * (e * i - f * h) - b * (d * i - f * g) + c * (d * h - e * g) = 1) :
    ((h - f) * (h - f) = (a + e + i + 1) * (1 + a - e - i) ∧ (c - g) * (c - g) = (a + e + i + 1) * (1 - a + e - i) ∧ (d - b) * (d - b) = (a + e + i + 1) * (1 - a - e + i) ∧
      (h - f) * (c - g) = (a + e + i + 1) * (d + b) ∧ (h - f) * (d - b) = (a + e + i + 1) * (g + c) ∧ (c - g) * (d - b) = (a + e + i + 1) * (h + f)) ∧
    ((d + b) * (d + b) = (a - e - i + 1) * (1 - a + e - i) ∧ (g + c) * (g + c) = (a - e - i + 1) * (1 - a - e + i) ∧
      (h - f) * (d + b) = (a - e - i + 1) * (c - g) ∧ (h - f) * (g + c) = (a - e - i + 1) * (d - b) ∧ (d + b) * (g + c) = (a - e - i + 1) * (h + f)) ∧
    ((h + f) * (h + f) = (e - i - a + 1) * (1 - a - e + i) ∧ (c - g) * (b + d) = (e - i - a + 1) * (h - f) ∧ (c - g) * (h + f) = (e - i - a + 1) * (d - b) ∧ (b + d) * (h + f) = (e - i - a + 1) * (g + c)) ∧
    ((d - b) * (c + g) = (i - a - e + 1) * (h - f) ∧ (d - b) * (f + h) = (i - a - e + 1) * (c - g) ∧ (c + g) * (f + h) = (i - a - e + 1) * (d + b)) := by
  have k00 : a = e * i - f * h := by linear_combination (-a) * hdet + (e * i - f * h) * c00 - (d * i - f * g) * c01 + (d * h - e * g) * c02
  have k01 : b = f * g - d * i := by linear_combination (-b) * hdet + (e * i - f * h) * c01 - (d * i - f * g) * c11 + (d * h - e * g) * c12
  have k02 : c = d * h - e * g := by linear_combination (-c) * hdet + (e * i - f * h) * c02 - (d * i - f * g) * c12 + (d * h - e * g) * c22
  have k10 : d = c * h - b * i := by linear_combination (-d) * hdet + (c * h - b * i) * c00 + (a * i - c * g) * c01 + (b * g - a * h) * c02
  have k11 : e = a * i - c * g := by linear_combination (-e) * hdet + (c * h - b * i) * c01 + (a * i - c * g) * c11 + (b * g - a * h) * c12
  have k12 : f = b * g - a * h := by linear_combination (-f) * hdet + (c * h - b * i) * c02 + (a * i - c * g) * c12 + (b * g - a * h) * c22
  have k20 : g = b * f - c * e := by linear_combination (-g) * hdet + (b * f - c * e) * c00 + (c * d - a * f) * c01 + (a * e - b * d) * c02
  have k21 : h = c * d - a * f := by linear_combination (-h) * hdet + (b * f - c * e) * c01 + (c * d - a * f) * c11 + (a * e - b * d) * c12
  have k22 : i = a * e - b * d := by linear_combination (-i) * hdet + (b * f - c * e) * c02 + (c * d - a * f) * c12 + (a * e - b * d) * c22
  clear hdet
  refine ⟨⟨?_, ?_, ?_, ?_, ?_, ?_⟩, ⟨?_, ?_, ?_, ?_, ?_⟩, ⟨?_, ?_, ?_, ?_⟩, ?_, ?_, ?_⟩ <;> grind

theorem quatOfMatrix_products (m : Fin 3 → Fin 3 → ℝ) (hc : ∀ i j, ∑ k, m k i * m k j = if i = j then 1 else 0) (hdet : det3 m = 1) : RotProducts (quatOfMatrix m) m := by
  have hr := rows_of_columns hc
  have c00 := hc 0 0
  have c11 := hc 1 1
  have c22 := hc 2 2
  have c01 := hc 0 1
  have c02 := hc 0 2
  have c12 := hc 1 2
  have r00 := hr 0 0
  have r11 := hr 1 1
  have r22 := hr 2 2
  have r01 := hr 0 1
  have r02 := hr 0 2
  have r12 := hr 1 2
  simp only [Fin.sum_univ_three, if_true, Fin.isValue, zero_ne_one, if_false, Fin.reduceEq] at c00 c11 c22 c01 c02 c12 r00 r11 r22 r01 r02 r12
  unfold det3 at hdet
  obtain ⟨⟨w1, w2, w3, w4, w5, w6⟩, ⟨x1, x2, x3, x4, x5⟩, ⟨y1, y2, y3, y4⟩, z1, z2, z3⟩ := rotation_minors c00 c11 c22 c01 c02 c12 r00 r11 r22 r01 r02 r12 hdet
  by_cases h0 : 0 < m 0 0 + m 1 1 + m 2 2
  · have hn : 0 < m 0 0 + m 1 1 + m 2 2 + 1 := by linarith
    have e : quatOfMatrix m = _ := if_pos h0
    rw [e]
    constructor <;> dsimp only
    · rw [pivot_self rfl hn]; ring
    · exact pivot_mul rfl hn w1
    · exact pivot_mul rfl hn w2
    · exact pivot_mul rfl hn w3
    · exact pivot_one rfl hn
    · exact pivot_one rfl hn
    · exact pivot_one rfl hn
    · exact pivot_mul rfl hn w4
    · exact pivot_mul rfl hn w5
    · exact pivot_mul rfl hn w6
  have e0 : quatOfMatrix m = _ := if_neg h0
  rw [e0]
  clear e0
  have zcase : m 2 2 - m 0 0 - m 1 1 + 1 > 0 → RotProducts { z := 1 / 2 * √(m 2 2 - m 0 0 - m 1 1 + 1), w := (m 1 0 - m 0 1) * (1 / 2 / √(m 2 2 - m 0 0 - m 1 1 + 1)), x := (m 0 2 + m 2 0) * (1 / 2 / √(m 2 2 - m 0 0 - m 1 1 + 1)), y := (m 1 2 + m 2 1) * (1 / 2 / √(m 2 2 - m 0 0 - m 1 1 + 1)) } m := by
    intro hn
    constructor <;> dsimp only
    · exact pivot_mul rfl hn (by linear_combination w3)
    · exact pivot_mul rfl hn (by linear_combination x2)
    · exact pivot_mul rfl hn (by linear_combination y1)
    · rw [pivot_self rfl hn]; ring
    · exact pivot_mul rfl hn z1
    · exact pivot_mul rfl hn z2
    · exact pivot_one' rfl hn
    · exact pivot_mul rfl hn z3
    · rw [pivot_one' rfl hn]; ring
    · rw [pivot_one' rfl hn]; ring
  have ycase : m 1 1 - m 2 2 - m 0 0 + 1 > 0 → RotProducts { y := 1 / 2 * √(m 1 1 - m 2 2 - m 0 0 + 1), w := (m 0 2 - m 2 0) * (1 / 2 / √(m 1 1 - m 2 2 - m 0 0 + 1)), z := (m 2 1 + m 1 2) * (1 / 2 / √(m 1 1 - m 2 2 - m 0 0 + 1)), x := (m 0 1 + m 1 0) * (1 / 2 / √(m 1 1 - m 2 2 - m 0 0 + 1)) } m := by
    intro hn
    constructor <;> dsimp only
    · exact pivot_mul rfl hn (by linear_combination w2)
    · exact pivot_mul rfl hn (by linear_combination x1)
    · rw [pivot_self rfl hn]; ring
    · exact pivot_mul rfl hn (by linear_combination y1)
    · exact pivot_mul rfl hn y2
    · exact pivot_one' rfl hn
    · exact pivot_mul rfl hn y3
    · rw [pivot_one' rfl hn]; ring
    · exact pivot_mul rfl hn y4
    · exact pivot_one rfl hn
  have xcase : m 0 0 - m 1 1 - m 2 2 + 1 > 0 → RotProducts { x := 1 / 2 * √(m 0 0 - m 1 1 - m 2 2 + 1), w := (m 2 1 - m 1 2) * (1 / 2 / √(m 0 0 - m 1 1 - m 2 2 + 1)), y := (m 1 0 + m 0 1) * (1 / 2 / √(m 0 0 - m 1 1 - m 2 2 + 1)), z := (m 2 0 + m 0 2) * (1 / 2 / √(m 0 0 - m 1 1 - m 2 2 + 1)) } m := by
    intro hn
    constructor <;> dsimp only
    · exact pivot_mul rfl hn (by linear_combination w1)
    · rw [pivot_self rfl hn]; ring
    · exact pivot_mul rfl hn (by linear_combination x1)
    · exact pivot_mul rfl hn (by linear_combination x2)
    · exact pivot_one' rfl hn
    · exact pivot_mul rfl hn x3
    · exact pivot_mul rfl hn x4
    · exact pivot_one rfl hn
    · exact pivot_one rfl hn
    · exact pivot_mul rfl hn x5
  have sum : (m 0 0 - m 1 1 - m 2 2 + 1) + (m 1 1 - m 2 2 - m 0 0 + 1) + (m 2 2 - m 0 0 - m 1 1 + 1) = 3 - (m 0 0 + m 1 1 + m 2 2) := by ring
  by_cases h1 : m 0 0 < m 1 1
  · rw [if_pos h1]
    dsimp only
    by_cases h2 : m 1 1 < m 2 2
    · rw [if_pos h2]; exact zcase (by linarith)
    · rw [if_neg h2, if_pos rfl]; exact ycase (by linarith)
  · rw [if_neg h1]
    dsimp only
    by_cases h2 : m 0 0 < m 2 2
    · rw [if_pos h2]; exact zcase (by linarith)
    · rw [if_neg h2, if_neg (by decide)]; exact xcase (by linarith)

theorem quatOfMatrix_proper (m : Fin 3 → Fin 3 → ℝ) (hc : ∀ i j, ∑ k, m k i * m k j = if i = j then 1 else 0) (hdet : det3 m = 1) :
    quatNormSq (quatOfMatrix m) = 1 ∧ ∀ v, (quatOfMatrix m).rotate v = fun i => ∑ k, m i k * v k := by
  have h := quatOfMatrix_products m hc hdet
  generalize quatOfMatrix m = q at h
  obtain ⟨ww, xx, yy, zz, wx, wy, wz, xy, xz, yz⟩ := h
  constructor
  · unfold quatNormSq; linear_combination (ww + xx + yy + zz) / 4
  · intro v
    funext i
    fin_cases i
    · show q.rotate v 0 = ∑ k, m 0 k * v k
      rw [rotate_zero, Fin.sum_univ_three]; linear_combination (-v 0 / 2) * (yy + zz) + v 1 / 2 * (xy - wz) + v 2 / 2 * (xz + wy)
    · show q.rotate v 1 = ∑ k, m 1 k * v k
      rw [rotate_one, Fin.sum_univ_three]; linear_combination (-v 1 / 2) * (xx + zz) + v 0 / 2 * (xy + wz) + v 2 / 2 * (yz - wx)
    · show q.rotate v 2 = ∑ k, m 2 k * v k
      rw [rotate_two, Fin.sum_univ_three]; linear_combination (-v 2 / 2) * (xx + yy) + v 0 / 2 * (xz - wy) + v 1 / 2 * (yz + wx)

theorem turn_unit (q : Quat) (h : quatNormSq q = 1) (v : Fin 3 → ℝ) : turn q v = q.rotate v := by
  have h' : q.w ^ 2 + q.x ^ 2 + q.y ^ 2 + q.z ^ 2 = 1 := h
  funext i
  fin_cases i
  · show (_ : ℝ) / (q.w ^ 2 + q.x ^ 2 + q.y ^ 2 + q.z ^ 2) = q.rotate v 0
    rw [rotate_zero, h', div_one]; linear_combination v 0 * h'
  · show (_ : ℝ) / (q.w ^ 2 + q.x ^ 2 + q.y ^ 2 + q.z ^ 2) = q.rotate v 1
    rw [rotate_one, h', div_one]; linear_combination v 1 * h'
  · show (_ : ℝ) / (q.w ^ 2 + q.x ^ 2 + q.y ^ 2 + q.z ^ 2) = q.rotate v 2
    rw [rotate_two, h', div_one]; linear_combination v 2 * h'

theorem flSqrt_fin {x : ℝ} (h : 0 ≤ x) : flSqrt (.fin x) = .fin (√x) := if_neg (not_lt.2 h)

theorem rotate_linear (q : Quat) (u v : Fin 3 → ℝ) (i : Fin 3) : q.rotate (u + v) i = q.rotate u i + q.rotate v i := by
  fin_cases i <;> simp [Quat.rotate] <;> ring

/-! #### the markers -/

section
variable {C : Type}

theorem marker_fits3 (t : Pt ℝ 3) (q : Quat) (hq : quatNormSq q = 1) (eigen : Multiset (Pt ℝ 3) → Option ((Fin 3 → Fl ℝ) × (Fin 3 → Fin 3 → ℝ))) (color : Pt ℝ 3 → C) (cov : Multiset (Pt ℝ 3) → Fin 3 → Fin 3 → ℝ)
    (hE : ∀ s ev E, eigen s = some (ev, E) → ∃ l, ev = (fun i => .fin (l i)) ∧ Decomposes (cov s) l E ∧ det3 E = 1) (e : ℝ) (he : 0 < e) (n : Nat) (alpha : ℝ) (s : Multiset (Pt ℝ 3)) (m : Marker ℝ Quat C)
    (hm : markerFor (viz3 e) (shapeViz3 t q eigen color) n alpha s = some m) : MarkerFits3 e (moved3 t q) cov s m := by
  obtain ⟨⟨ev, E⟩, hev, rfl⟩ := Option.map_eq_some_iff.1 hm
  obtain ⟨l, rfl, hD, hdet⟩ := hE s ev E hev
  obtain ⟨hn, hrot⟩ := quatOfMatrix_proper E hD.unit hdet
  have hq' : quatNormSq (orient3 q E) = 1 := by unfold orient3; rw [quatNormSq_mul, hq, hn, one_mul]
  refine ⟨hq', shows_ellipsoid hD e he _ _ _ ?_⟩
  have hsc : ∀ i, (viz3 e).scale flSqrt (fun i => .fin (l i)) i = .fin (max e (2 * √(l i))) := fun i => (C71_geometry e flSqrt).2.2.2.2.2 i _ _ (flSqrt_fin (hD.nonneg i))
  have hshow : ∀ u : Fin 3 → ℝ, (fun i => moved3 t q (centroid s) i + turn (orient3 q E) (fun j => max e (2 * √(l j)) / 2 * u j) i) =
      moved3 t q (centroid s + fun i => ∑ k, E i k * (max e (2 * √(l k)) / 2 * u k)) := by
    intro u
    rw [turn_unit _ hq']
    unfold orient3
    rw [rotate_mul q _ hq hn, hrot]
    funext i
    show q.rotate _ i + t i + _ = q.rotate _ i + t i
    rw [rotate_linear]
    ring
  ext p
  constructor
  · rintro ⟨sc, u, hs, hu, rfl⟩
    have : ∀ i, sc i = max e (2 * √(l i)) := fun i => Fl.fin.inj ((hs i).symm.trans (hsc i))
    exact ⟨u, hu, by rw [← hshow u]; simp only [this]; rfl⟩
  · rintro ⟨u, hu, rfl⟩
    exact ⟨fun i => max e (2 * √(l i)), u, hsc, hu, (hshow u).symm⟩

theorem embed2_columns (E : Fin 2 → Fin 2 → ℝ) (h : ∀ i j, ∑ k, E k i * E k j = if i = j then 1 else 0) (i j : Fin 3) : ∑ k, embed2 E k i * embed2 E k j = if i = j then 1 else 0 := by
  have h00 := h 0 0
  have h01 := h 0 1
  have h10 := h 1 0
  have h11 := h 1 1
  simp only [Fin.sum_univ_two, if_true, Fin.isValue, zero_ne_one, one_ne_zero, if_false] at h00 h01 h10 h11
  rw [Fin.sum_univ_three]
  fin_cases i <;> fin_cases j <;> simp [embed2] <;> assumption

theorem marker_fits2 (t : Pt ℝ 2) (yaw : ℝ) (eigen : Multiset (Pt ℝ 2) → Option ((Fin 2 → Fl ℝ) × (Fin 2 → Fin 2 → ℝ))) (color : Pt ℝ 2 → C) (cov : Multiset (Pt ℝ 2) → Fin 2 → Fin 2 → ℝ)
    (hE : ∀ s ev E, eigen s = some (ev, E) → ∃ l, ev = (fun i => .fin (l i)) ∧ Decomposes (cov s) l E ∧ det2 E = 1) (e : ℝ) (he : 0 < e) (n : Nat) (alpha : ℝ) (s : Multiset (Pt ℝ 2)) (m : Marker ℝ Quat C)
    (hm : markerFor (viz2 e) (shapeViz2 t yaw eigen color) n alpha s = some m) : MarkerFits2 e (moved2 t yaw) cov s m := by
  obtain ⟨⟨ev, E⟩, hev, rfl⟩ := Option.map_eq_some_iff.1 hm
  obtain ⟨l, rfl, hD, hdet⟩ := hE s ev E hev
  obtain ⟨hn, hrot⟩ := quatOfMatrix_proper (embed2 E) (embed2_columns E hD.unit) (by unfold det2 at hdet; simp [det3, embed2]; linarith)
  have hy : quatNormSq (quatOfYaw yaw) = 1 := by
    unfold quatNormSq quatOfYaw
    have := sin_sq_add_cos_sq (yaw / 2)
    simp only
    linarith
  have hq' : quatNormSq (orient2 yaw E) = 1 := by unfold orient2; rw [quatNormSq_mul, hy, hn, one_mul]
  refine ⟨hq', shows_ellipsoid hD e he _ _ _ ?_⟩
  have hg := C71_geometry e flSqrt
  set sc0 : Fin 3 → ℝ := ![max e (2 * √(l 0)), max e (2 * √(l 1)), e] with hsc0
  have hsc : ∀ i, (viz2 e).scale flSqrt (fun i => .fin (l i)) i = .fin (sc0 i) := by
    intro i
    fin_cases i
    · exact hg.2.2.1 _ _ (flSqrt_fin (hD.nonneg 0))
    · exact hg.2.2.2.1 _ _ (flSqrt_fin (hD.nonneg 1))
    · rfl
  have hturn : ∀ v : Fin 3 → ℝ, turn (orient2 yaw E) v = rotZ yaw fun i => ∑ k, embed2 E i k * v k := by
    intro v
    rw [turn_unit _ hq']
    unfold orient2
    rw [rotate_mul _ _ hy hn, hrot]
    exact rotate_qz yaw _
  have hshow : ∀ u : Fin 3 → ℝ, (![(viz2 e).position (moved2 t yaw (centroid s)) 0 + turn (orient2 yaw E) (fun j => sc0 j / 2 * u j) 0,
      (viz2 e).position (moved2 t yaw (centroid s)) 1 + turn (orient2 yaw E) (fun j => sc0 j / 2 * u j) 1] : Fin 2 → ℝ) =
      moved2 t yaw (centroid s + fun i => ∑ k, E i k * (max e (2 * √(l k)) / 2 * ![u 0, u 1] k)) := by
    intro u
    rw [hturn]
    funext i
    fin_cases i <;> simp [moved2, rotZ, viz2, embed2, hsc0, Fin.sum_univ_three, Fin.sum_univ_two] <;> ring
  ext p
  constructor
  · rintro ⟨x, ⟨sc, u, hs, hu, rfl⟩, rfl⟩
    have : ∀ i, sc i = sc0 i := fun i => Fl.fin.inj ((hs i).symm.trans (hsc i))
    refine ⟨![u 0, u 1], ?_, ?_⟩
    · rw [Fin.sum_univ_three] at hu
      rw [Fin.sum_univ_two]
      have := sq_nonneg (u 2)
      simp only [Matrix.cons_val_zero, Matrix.cons_val_one]
      linarith
    · rw [← hshow u]; simp only [this]; rfl
  · rintro ⟨u, hu, rfl⟩
    refine ⟨_, ⟨sc0, ![u 0, u 1, 0], hsc, ?_, rfl⟩, ?_⟩
    · rw [Fin.sum_univ_two] at hu
      rw [Fin.sum_univ_three]
      simpa using hu
    · have := hshow ![u 0, u 1, 0]
      have e1 : (![![u 0, u 1, 0] 0, (![u 0, u 1, 0] : Fin 3 → ℝ) 1] : Fin 2 → ℝ) = u := by funext i; fin_cases i <;> rfl
      rw [e1] at this
      exact this.symm

/-- **C107** (partial: eigenvectors without reflection, three dimensions, NDT maps). Every marker is shown as the ellipsoid of the covariance of its distribution, at its place in the world. -/
theorem C107_ndt_3d_partial (k : Kind 3) (g : Geo ℝ 3) (exp : Multiset (Pt ℝ 3) → Bool) (ops : List (GridOp ℝ 3)) (st : St k.backend (Multiset (Pt ℝ 3))) (h : gridRun g k.dyn exp ops (k.init _) = some st)
    (t : Pt ℝ 3) (q : Quat) (hq : quatNormSq q = 1) (eigen : Multiset (Pt ℝ 3) → Option ((Fin 3 → Fl ℝ) × (Fin 3 → Fin 3 → ℝ))) (color : Pt ℝ 3 → C) (cov : Multiset (Pt ℝ 3) → Fin 3 → Fin 3 → ℝ)
    (hE : ∀ s ev E, eigen s = some (ev, E) → ∃ l, ev = (fun i => .fin (l i)) ∧ Decomposes (cov s) l E ∧ det3 E = 1) (e : ℝ) (he : 0 < e) (marker0 : Marker ℝ Quat C) (h0 : marker0.id = 0) (dst : List (Marker ℝ Quat C)) :
    ∃ keys ms, Lists st (fun s => eigen s ≠ none) keys ∧ markersNdt (viz3 e) (shapeViz3 t q eigen color) marker0 dst st = dst ++ { marker0 with action := .deleteAll } :: ms ∧ ms.length = keys.length ∧
      ∀ (i : Nat) c k, keys[i]? = some (c, k) → ∃ s, ∃ m : Marker ℝ Quat C, st.content c k = some s ∧ ms[i]? = some m ∧ MarkerFits3 e (moved3 t q) cov s m := by
  obtain ⟨keys, ms, h1, h2, h3, h4⟩ := C71_markers_ndt k g exp ops st h (viz3 e) (shapeViz3 t q eigen color) marker0 h0 dst
  refine ⟨keys, ms, h1, h2, h3, fun i c k hk => ?_⟩
  obtain ⟨s, hs, hm⟩ := h4 i c k hk
  have hi : i < ms.length := by rw [h3]; exact (List.getElem?_eq_some_iff.1 hk).1
  rw [List.getElem?_eq_getElem hi] at hm ⊢
  exact ⟨s, _, hs, rfl, marker_fits3 t q hq eigen color cov hE e he _ _ s _ hm.symm⟩

/-- **C107** (partial: eigenvectors without reflection, two dimensions, NDT maps). -/
theorem C107_ndt_2d_partial (k : Kind 2) (g : Geo ℝ 2) (exp : Multiset (Pt ℝ 2) → Bool) (ops : List (GridOp ℝ 2)) (st : St k.backend (Multiset (Pt ℝ 2))) (h : gridRun g k.dyn exp ops (k.init _) = some st)
    (t : Pt ℝ 2) (yaw : ℝ) (eigen : Multiset (Pt ℝ 2) → Option ((Fin 2 → Fl ℝ) × (Fin 2 → Fin 2 → ℝ))) (color : Pt ℝ 2 → C) (cov : Multiset (Pt ℝ 2) → Fin 2 → Fin 2 → ℝ)
    (hE : ∀ s ev E, eigen s = some (ev, E) → ∃ l, ev = (fun i => .fin (l i)) ∧ Decomposes (cov s) l E ∧ det2 E = 1) (e : ℝ) (he : 0 < e) (marker0 : Marker ℝ Quat C) (h0 : marker0.id = 0) (dst : List (Marker ℝ Quat C)) :
    ∃ keys ms, Lists st (fun s => eigen s ≠ none) keys ∧ markersNdt (viz2 e) (shapeViz2 t yaw eigen color) marker0 dst st = dst ++ { marker0 with action := .deleteAll } :: ms ∧ ms.length = keys.length ∧
      ∀ (i : Nat) c k, keys[i]? = some (c, k) → ∃ s, ∃ m : Marker ℝ Quat C, st.content c k = some s ∧ ms[i]? = some m ∧ MarkerFits2 e (moved2 t yaw) cov s m := by
  obtain ⟨keys, ms, h1, h2, h3, h4⟩ := C71_markers_ndt k g exp ops st h (viz2 e) (shapeViz2 t yaw eigen color) marker0 h0 dst
  refine ⟨keys, ms, h1, h2, h3, fun i c k hk => ?_⟩
  obtain ⟨s, hs, hm⟩ := h4 i c k hk
  have hi : i < ms.length := by rw [h3]; exact (List.getElem?_eq_some_iff.1 hk).1
  rw [List.getElem?_eq_getElem hi] at hm ⊢
  exact ⟨s, _, hs, rfl, marker_fits2 t yaw eigen color cov hE e he _ _ s _ hm.symm⟩

/-- **C107** (partial: eigenvectors without reflection, three dimensions, occupancy maps). -/
theorem C107_occupancy_3d_partial (k : Kind 3) (g : Geo ℝ 3) (defRay : Pt ℝ 3 → Pt ℝ 3 → List (Idx 3)) (exp : Occ Nat (Pt ℝ 3) → Bool) (ops : List (OccMapOp ℝ 3 Nat (Pt ℝ 3))) (st : St k.backend (Occ Nat (Pt ℝ 3)))
    (h : occRun (occFlavour ℝ 3) g k.dyn defRay exp ops (k.init _) = some st) (occ : Occ Nat (Pt ℝ 3) → ℝ) (threshold : ℝ)
    (t : Pt ℝ 3) (q : Quat) (hq : quatNormSq q = 1) (eigen : Multiset (Pt ℝ 3) → Option ((Fin 3 → Fl ℝ) × (Fin 3 → Fin 3 → ℝ))) (color : Pt ℝ 3 → C) (cov : Multiset (Pt ℝ 3) → Fin 3 → Fin 3 → ℝ)
    (hE : ∀ s ev E, eigen s = some (ev, E) → ∃ l, ev = (fun i => .fin (l i)) ∧ Decomposes (cov s) l E ∧ det3 E = 1) (e : ℝ) (he : 0 < e) (marker0 : Marker ℝ Quat C) (h0 : marker0.id = 0) (dst : List (Marker ℝ Quat C)) :
    ∃ keys ms, Lists st (fun o => o.data ≠ none ∧ threshold ≤ occ o ∧ eigen o.samples ≠ none) keys ∧
      markersOcc (viz3 e) (shapeViz3 t q eigen color) occ threshold marker0 dst st = dst ++ { marker0 with action := .deleteAll } :: ms ∧ ms.length = keys.length ∧
      ∀ (i : Nat) c k, keys[i]? = some (c, k) → ∃ o, ∃ m : Marker ℝ Quat C, st.content c k = some o ∧ ms[i]? = some m ∧ MarkerFits3 e (moved3 t q) cov o.samples m := by
  obtain ⟨keys, ms, h1, h2, h3, h4⟩ := C71_markers_occupancy k g defRay exp ops st h (viz3 e) (shapeViz3 t q eigen color) occ threshold marker0 h0 dst
  refine ⟨keys, ms, h1, h2, h3, fun i c k hk => ?_⟩
  obtain ⟨s, hs, hm⟩ := h4 i c k hk
  have hi : i < ms.length := by rw [h3]; exact (List.getElem?_eq_some_iff.1 hk).1
  rw [List.getElem?_eq_getElem hi] at hm ⊢
  exact ⟨s, _, hs, rfl, marker_fits3 t q hq eigen color cov hE e he _ _ _ _ hm.symm⟩

/-- **C107** (partial: eigenvectors without reflection, two dimensions, occupancy maps). -/
theorem C107_occupancy_2d_partial (k : Kind 2) (g : Geo ℝ 2) (defRay : Pt ℝ 2 → Pt ℝ 2 → List (Idx 2)) (exp : Occ Nat (Pt ℝ 2) → Bool) (ops : List (OccMapOp ℝ 2 Nat (Pt ℝ 2))) (st : St k.backend (Occ Nat (Pt ℝ 2)))
    (h : occRun (occFlavour ℝ 2) g k.dyn defRay exp ops (k.init _) = some st) (occ : Occ Nat (Pt ℝ 2) → ℝ) (threshold : ℝ)
    (t : Pt ℝ 2) (yaw : ℝ) (eigen : Multiset (Pt ℝ 2) → Option ((Fin 2 → Fl ℝ) × (Fin 2 → Fin 2 → ℝ))) (color : Pt ℝ 2 → C) (cov : Multiset (Pt ℝ 2) → Fin 2 → Fin 2 → ℝ)
    (hE : ∀ s ev E, eigen s = some (ev, E) → ∃ l, ev = (fun i => .fin (l i)) ∧ Decomposes (cov s) l E ∧ det2 E = 1) (e : ℝ) (he : 0 < e) (marker0 : Marker ℝ Quat C) (h0 : marker0.id = 0) (dst : List (Marker ℝ Quat C)) :
    ∃ keys ms, Lists st (fun o => o.data ≠ none ∧ threshold ≤ occ o ∧ eigen o.samples ≠ none) keys ∧
      markersOcc (viz2 e) (shapeViz2 t yaw eigen color) occ threshold marker0 dst st = dst ++ { marker0 with action := .deleteAll } :: ms ∧ ms.length = keys.length ∧
      ∀ (i : Nat) c k, keys[i]? = some (c, k) → ∃ o, ∃ m : Marker ℝ Quat C, st.content c k = some o ∧ ms[i]? = some m ∧ MarkerFits2 e (moved2 t yaw) cov o.samples m := by
  obtain ⟨keys, ms, h1, h2, h3, h4⟩ := C71_markers_occupancy k g defRay exp ops st h (viz2 e) (shapeViz2 t yaw eigen color) occ threshold marker0 h0 dst
  refine ⟨keys, ms, h1, h2, h3, fun i c k hk => ?_⟩
  obtain ⟨s, hs, hm⟩ := h4 i c k hk
  have hi : i < ms.length := by rw [h3]; exact (List.getElem?_eq_some_iff.1 hk).1
  rw [List.getElem?_eq_getElem hi] at hm ⊢
  exact ⟨s, _, hs, rfl, marker_fits2 t yaw eigen color cov hE e he _ _ _ _ hm.symm⟩

/-! #### reflections -/

/-- **C107** (what the code does otherwise, two dimensions): if the eigenvectors contain a reflection, the orientation does not depend on them; it is that of the map, scaled by `√(1/2)`. -/
theorem C107_reflected_2d (yaw : ℝ) (E : Fin 2 → Fin 2 → ℝ) (h : ∀ i j, ∑ k, E k i * E k j = if i = j then 1 else 0) (hdet : det2 E = -1) :
    orient2 yaw E = ⟨cos (yaw / 2) * √(1 / 2), 0, 0, sin (yaw / 2) * √(1 / 2)⟩ := by
  have h00 := h 0 0
  have h01 := h 0 1
  have h11 := h 1 1
  simp only [Fin.sum_univ_two, if_true, Fin.isValue, zero_ne_one, if_false] at h00 h01 h11
  unfold det2 at hdet
  have e1 : E 1 1 = -E 0 0 := by grind
  have e2 : E 1 0 = E 0 1 := by grind
  have htr : 0 < embed2 E 0 0 + embed2 E 1 1 + embed2 E 2 2 := by simp [embed2, e1]
  have hq : quatOfMatrix (embed2 E) = ⟨√(1 / 2), 0, 0, 0⟩ := by
    refine (if_pos htr).trans ?_
    have ht : embed2 E 0 0 + embed2 E 1 1 + embed2 E 2 2 + 1 = 2 := by simp [embed2, e1]; norm_num
    rw [ht]
    have hs : (1 / 2 : ℝ) * √2 = √(1 / 2) := by
      rw [show (1 / 2 : ℝ) = 2 / 2 ^ 2 by norm_num, sqrt_div (by norm_num), sqrt_sq (by norm_num)]; ring
    ext
    · exact hs
    · simp [embed2]
    · simp [embed2]
    · simp [embed2, e2]
  unfold orient2 quatOfYaw
  rw [hq]
  ext <;> simp [Quat.mul]

end

/-! #### a map with an oblique distribution -/

/-- cells of size 16, bundles of size 8 -/
noncomputable def shapeGeo (d : Nat) : Geo ℝ d := { r := 16, toMap := id, normal := fun _ => true }

open scoped Classical in
theorem shape_runs {d : Nat} (exp : Multiset (Pt ℝ d) → Bool) (pts : List (Pt ℝ d)) (hp : ∀ p ∈ pts, ∀ a, 0 ≤ p a ∧ p a < 8) (hne : pts ≠ []) :
    ∃ st, gridRun (shapeGeo d) true exp [.insert id pts] ((Kind.dynamic 0 0).init (Multiset (Pt ℝ d))) = some st ∧ st.content 0 (fun _ => 0) = some (pts : Multiset (Pt ℝ d)) := by
  have hidx : ∀ p ∈ pts, toBundleIndex (shapeGeo d).r p = fun _ => (0 : Int) := by
    intro p h
    funext a
    show ⌊p a * bundleResolutionInv (16 : ℝ)⌋ = 0
    rw [bundleResolutionInv_eq', Int.floor_eq_iff]
    have := hp p h a
    constructor <;> push_cast <;> linarith
  obtain ⟨st, hst⟩ : ∃ st, gridRun (shapeGeo d) true exp [.insert id pts] ((Kind.dynamic 0 0).init (Multiset (Pt ℝ d))) = some st := by
    refine dynamic_run_total (shapeGeo d) exp 0 0 10 _ _ (Kind.init_rinv (.dynamic 0 0)) (.refl ..) ?_ 10 (le_refl _) ?_ (by simp [expansions])
    · intro op hop
      rw [List.mem_singleton.1 hop]
      intro p hp' a
      have : p ∈ pts := by simpa [accList, shapeGeo] using hp'
      rw [hidx p this]; norm_num
    · intro bi hbi; rw [Kind.init_allocated] at hbi; exact absurd hbi (Set.notMem_empty _)
  refine ⟨st, hst, ?_⟩
  have h := C10_contents_exact (.dynamic 0 0) (shapeGeo d) (by show (0 : ℝ) < 16; norm_num) exp _ st hst 0 (Nat.two_pow_pos d) fun _ => 0
  have hacc : (accepted (shapeGeo d) (.dynamic 0 0) [.insert id pts]).filter (InCell (shapeGeo d).r 0 fun _ => 0) = (pts : Multiset (Pt ℝ d)) := by
    have e1 : accepted (shapeGeo d) (.dynamic 0 0) [.insert id pts] = (pts : Multiset (Pt ℝ d)) := by
      simp only [accepted, acceptedPoints, shapeGeo, List.map_id, List.filter_true, List.map_id_fun, id, add_zero]
      exact Multiset.filter_eq_self.2 fun _ _ => trivial
    rw [e1, Multiset.filter_eq_self]
    intro p h a
    have := hp p h a
    show ((0 : Int) - shift ℝ 0 a.1) * 16 ≤ p a ∧ p a < ((0 : Int) + 1 - shift ℝ 0 a.1) * 16
    simp [shift]
    constructor <;> linarith
  rw [hacc] at h
  cases hcnt : st.content 0 (fun _ => 0) with
  | none =>
    rw [hcnt] at h
    exact absurd (Multiset.coe_eq_zero _ |>.1 h.symm) hne
  | some s => rw [hcnt] at h; exact congrArg some h

/-- two points on each of two oblique axes -/
noncomputable def obliquePoints : List (Pt ℝ 2) := [![6, 6], ![2, 2], ![5, 3], ![3, 5]]

theorem oblique_centroid : centroid (obliquePoints : Multiset (Pt ℝ 2)) = ![4, 4] := by
  funext a
  fin_cases a <;> simp [centroid, obliquePoints] <;> norm_num

theorem oblique_covariance : covariance (obliquePoints : Multiset (Pt ℝ 2)) = ![![5 / 2, 3 / 2], ![3 / 2, 5 / 2]] := by
  funext i j
  unfold covariance
  rw [oblique_centroid]
  fin_cases i <;> fin_cases j <;> simp [obliquePoints] <;> norm_num

/-- eigenvectors with determinant 1 and -1 -/
noncomputable def obliqueVectors (reflect : Bool) : Fin 2 → Fin 2 → ℝ := ![![√(1 / 2), if reflect then √(1 / 2) else -√(1 / 2)], ![√(1 / 2), if reflect then -√(1 / 2) else √(1 / 2)]]

theorem half_sq : √(1 / 2 : ℝ) * √(1 / 2) = 1 / 2 := mul_self_sqrt (by norm_num)

theorem oblique_decomposes (b : Bool) : Decomposes (covariance (obliquePoints : Multiset (Pt ℝ 2))) ![4, 1] (obliqueVectors b) := by
  have h := half_sq
  constructor
  · intro k; fin_cases k <;> norm_num
  · intro i j
    rw [Fin.sum_univ_two]
    unfold obliqueVectors
    generalize √(1 / 2 : ℝ) = x at *
    fin_cases i <;> fin_cases j <;> cases b <;> simp <;> linarith
  · intro i k
    rw [oblique_covariance, Fin.sum_univ_two]
    unfold obliqueVectors
    generalize √(1 / 2 : ℝ) = x at *
    fin_cases i <;> fin_cases k <;> cases b <;> simp <;> ring

theorem oblique_det (b : Bool) : det2 (obliqueVectors b) = if b then -1 else 1 := by
  have h := half_sq
  unfold det2 obliqueVectors
  generalize √(1 / 2 : ℝ) = x at *
  cases b <;> simp <;> linarith

open scoped Classical in
/-- a decomposition of the oblique distribution only -/
noncomputable def obliqueEigen (b : Bool) (s : Multiset (Pt ℝ 2)) : Option ((Fin 2 → Fl ℝ) × (Fin 2 → Fin 2 → ℝ)) :=
  if s = (obliquePoints : Multiset (Pt ℝ 2)) then some (fun i => .fin ((![4, 1] : Fin 2 → ℝ) i), obliqueVectors b) else none

theorem obliqueEigen_spec (b : Bool) (s : Multiset (Pt ℝ 2)) (ev) (E) (h : obliqueEigen b s = some (ev, E)) :
    ∃ l, ev = (fun i => Fl.fin (l i)) ∧ Decomposes (covariance s) l E ∧ det2 E = if b then -1 else 1 := by
  unfold obliqueEigen at h
  split at h
  · rename_i hs
    cases h
    subst hs
    exact ⟨_, rfl, oblique_decomposes b, oblique_det b⟩
  · cases h

theorem oblique_runs (exp : Multiset (Pt ℝ 2) → Bool) :
    ∃ st, gridRun (shapeGeo 2) true exp [.insert id obliquePoints] ((Kind.dynamic 0 0).init (Multiset (Pt ℝ 2))) = some st ∧ st.content 0 (fun _ => 0) = some (obliquePoints : Multiset (Pt ℝ 2)) := by
  refine shape_runs exp obliquePoints ?_ (by simp [obliquePoints])
  intro p hp a
  simp only [obliquePoints, List.mem_cons, List.not_mem_nil, or_false] at hp
  rcases hp with rfl | rfl | rfl | rfl <;> fin_cases a <;> norm_num

/-- the default constructed marker -/
def marker00 : Marker ℝ Quat Unit := ⟨.add, 0, fun _ => 0, ⟨0, 0, 0, 0⟩, fun _ => .fin 0, 0, ()⟩

/-- Non-vacuity: a map with an oblique distribution, moved by a rotation and a translation, for which a marker is exported. -/
example (exp : Multiset (Pt ℝ 2) → Bool) : ∃ st, gridRun (shapeGeo 2) true exp [.insert id obliquePoints] ((Kind.dynamic 0 0).init (Multiset (Pt ℝ 2))) = some st ∧
    ∃ m ∈ markersNdt (viz2 (1 / 10000)) (shapeViz2 ![1, 2] 3 (obliqueEigen false) fun _ => ()) marker00 [] st, MarkerFits2 (1 / 10000) (moved2 ![1, 2] 3) covariance (obliquePoints : Multiset (Pt ℝ 2)) m := by
  obtain ⟨st, h1, h2⟩ := oblique_runs exp
  refine ⟨st, h1, ?_⟩
  obtain ⟨keys, ms, hL, hm, hlen, hk⟩ := C107_ndt_2d_partial (.dynamic 0 0) (shapeGeo 2) exp _ st h1 ![1, 2] 3 (obliqueEigen false) (fun _ => ()) covariance
    (fun s ev E h => by simpa using obliqueEigen_spec false s ev E h) (1 / 10000) (by norm_num) marker00 rfl []
  obtain ⟨i, hi⟩ := List.mem_iff_getElem?.1 ((hL.2 0 fun _ => 0).2 ⟨by norm_num, _, h2, by simp [obliqueEigen]⟩)
  obtain ⟨s, m, hs, hmi, hf⟩ := hk i 0 _ hi
  cases h2.symm.trans hs
  refine ⟨m, ?_, hf⟩
  rw [hm]
  exact List.mem_append_right _ (List.mem_cons_of_mem _ (List.mem_of_getElem? hmi))

/-- **C107** is false of the code: the solver may return eigenvectors of either handedness. For a valid decomposition that contains a reflection, the conversion to a quaternion is meaningless: the marker of an oblique
distribution is shown parallel to the axes. -/
theorem C107_reflected_refuted (exp : Multiset (Pt ℝ 2) → Bool) : ∃ st, gridRun (shapeGeo 2) true exp [.insert id obliquePoints] ((Kind.dynamic 0 0).init (Multiset (Pt ℝ 2))) = some st ∧
    ∃ eigen : Multiset (Pt ℝ 2) → Option ((Fin 2 → Fl ℝ) × (Fin 2 → Fin 2 → ℝ)),
      (∀ s ev E, eigen s = some (ev, E) → ∃ l, ev = (fun i => Fl.fin (l i)) ∧ Decomposes (covariance s) l E) ∧
      ∃ c k s, st.content c k = some s ∧ eigen s ≠ none ∧
        ∃ m ∈ markersNdt (viz2 (1 / 10000)) (shapeViz2 0 0 eigen fun _ => ()) marker00 [] st, m.position = ![centroid s 0, centroid s 1, 0] ∧
          ¬ ShowsEllipsoid (1 / 10000) id (centroid s) (covariance s) (Shown2 m) := by
  obtain ⟨st, h1, h2⟩ := oblique_runs exp
  refine ⟨st, h1, obliqueEigen true, fun s ev E h => ?_, 0, fun _ => 0, _, h2, by simp [obliqueEigen], ?_⟩
  · obtain ⟨l, a, b, _⟩ := obliqueEigen_spec true s ev E h
    exact ⟨l, a, b⟩
  obtain ⟨keys, ms, hL, hm, hlen, hk⟩ := C71_markers_ndt (.dynamic 0 0) (shapeGeo 2) exp _ st h1 (viz2 (1 / 10000)) (shapeViz2 0 0 (obliqueEigen true) fun _ => ()) marker00 rfl []
  obtain ⟨i, hi⟩ := List.mem_iff_getElem?.1 ((hL.2 0 fun _ => 0).2 ⟨by norm_num, _, h2, by simp [shapeViz2, obliqueEigen]⟩)
  obtain ⟨s, hs, hmi⟩ := hk i 0 _ hi
  cases h2.symm.trans hs
  have heig : obliqueEigen true (obliquePoints : Multiset (Pt ℝ 2)) = some (fun i => .fin ((![4, 1] : Fin 2 → ℝ) i), obliqueVectors true) := if_pos rfl
  unfold markerFor at hmi
  rw [show (shapeViz2 0 0 (obliqueEigen true) fun _ => ()).eigen = obliqueEigen true from rfl, heig, Option.map_some] at hmi
  refine ⟨_, by rw [hm]; exact List.mem_append_right _ (List.mem_cons_of_mem _ (List.mem_of_getElem? hmi)), ?_, ?_⟩
  · show (viz2 (1 / 10000 : ℝ)).position (moved2 0 0 (centroid _)) = _
    funext a
    fin_cases a <;> simp [viz2, moved2]
  · rintro ⟨_, hS, _⟩
    have hq : orient2 0 (obliqueVectors true) = ⟨√(1 / 2), 0, 0, 0⟩ := by
      rw [C107_reflected_2d 0 _ (oblique_decomposes true).unit (oblique_det true)]
      simp
    have key := hS ![6, 4]
    refine absurd (key ?_) ?_
    rotate_left
    · rintro ⟨x, hx, y, hy, hxy⟩
      have h0 := hx ![1, 0]
      rw [oblique_covariance] at h0
      have e0 : (6 : ℝ) = 4 + (x 0 + y 0) := by have := congrFun hxy 0; rwa [oblique_centroid] at this
      simp [Fin.sum_univ_two] at h0 hy
      have := sq_nonneg (y 1)
      have hy0 : y 0 ^ 2 ≤ (1 / 2) ^ 2 := by norm_num at hy ⊢; nlinarith
      have hy1 : y 0 ≤ 1 / 2 := by nlinarith
      nlinarith
    refine ⟨![6, 4, 0], ⟨![4, 2, 1 / 10000], ![1, 0, 0], ?_, ?_, ?_⟩, ?_⟩
    · intro i
      have hg := C71_geometry (1 / 10000 : ℝ) flSqrt
      have e4 : √(4 : ℝ) = 2 := by rw [show (4 : ℝ) = 2 ^ 2 by norm_num]; exact sqrt_sq (by norm_num)
      fin_cases i
      · refine (hg.2.2.1 (fun i => .fin ((![4, 1] : Fin 2 → ℝ) i)) _ (flSqrt_fin (by norm_num : (0 : ℝ) ≤ 4))).trans ?_
        show Fl.fin (max (1 / 10000) (2 * √(4 : ℝ))) = Fl.fin 4
        rw [e4]; norm_num
      · refine (hg.2.2.2.1 (fun i => .fin ((![4, 1] : Fin 2 → ℝ) i)) _ (flSqrt_fin (by norm_num : (0 : ℝ) ≤ 1))).trans ?_
        show Fl.fin (max (1 / 10000) (2 * √(1 : ℝ))) = Fl.fin 2
        rw [sqrt_one]; norm_num
      · rfl
    · simp [Fin.sum_univ_three]
    · funext i
      show _ = (viz2 (1 / 10000 : ℝ)).position (moved2 0 0 (centroid _)) i + turn (orient2 0 (obliqueVectors true)) _ i
      have hh : √(1 / 2 : ℝ) ^ 2 = 1 / 2 := sq_sqrt (by norm_num)
      rw [hq, oblique_centroid]
      fin_cases i <;> simp only [turn, hh] <;> simp [viz2, moved2] <;> norm_num
    · funext i; fin_cases i <;> rfl

/-! #### the same in three dimensions -/

noncomputable def obliquePoints3 : List (Pt ℝ 3) := [![6, 6, 5], ![2, 2, 5], ![5, 3, 3], ![3, 5, 3]]

theorem oblique3_centroid : centroid (obliquePoints3 : Multiset (Pt ℝ 3)) = ![4, 4, 4] := by
  funext a
  fin_cases a <;> simp [centroid, obliquePoints3] <;> norm_num

theorem oblique3_covariance : covariance (obliquePoints3 : Multiset (Pt ℝ 3)) = ![![5 / 2, 3 / 2, 0], ![3 / 2, 5 / 2, 0], ![0, 0, 1]] := by
  funext i j
  unfold covariance
  rw [oblique3_centroid]
  fin_cases i <;> fin_cases j <;> simp [obliquePoints3] <;> norm_num

/-- eigenvectors with determinant 1 and -1 -/
noncomputable def obliqueVectors3 (reflect : Bool) : Fin 3 → Fin 3 → ℝ :=
  ![![√(1 / 2), if reflect then √(1 / 2) else -√(1 / 2), 0], ![√(1 / 2), if reflect then -√(1 / 2) else √(1 / 2), 0], ![0, 0, 1]]

theorem oblique3_decomposes (b : Bool) : Decomposes (covariance (obliquePoints3 : Multiset (Pt ℝ 3))) ![4, 1, 1] (obliqueVectors3 b) := by
  have h := half_sq
  constructor
  · intro k; fin_cases k <;> simp
  · intro i j
    rw [Fin.sum_univ_three]
    unfold obliqueVectors3
    generalize √(1 / 2 : ℝ) = x at *
    fin_cases i <;> fin_cases j <;> cases b <;> simp <;> linarith
  · intro i k
    rw [oblique3_covariance, Fin.sum_univ_three]
    unfold obliqueVectors3
    generalize √(1 / 2 : ℝ) = x at *
    fin_cases i <;> fin_cases k <;> cases b <;> simp <;> ring

theorem oblique3_det (b : Bool) : det3 (obliqueVectors3 b) = if b then -1 else 1 := by
  have h := half_sq
  unfold det3 obliqueVectors3
  generalize √(1 / 2 : ℝ) = x at *
  cases b <;> simp <;> linarith

open scoped Classical in
/-- a decomposition of the oblique distribution only -/
noncomputable def obliqueEigen3 (b : Bool) (s : Multiset (Pt ℝ 3)) : Option ((Fin 3 → Fl ℝ) × (Fin 3 → Fin 3 → ℝ)) :=
  if s = (obliquePoints3 : Multiset (Pt ℝ 3)) then some (fun i => .fin ((![4, 1, 1] : Fin 3 → ℝ) i), obliqueVectors3 b) else none

theorem obliqueEigen3_spec (b : Bool) (s : Multiset (Pt ℝ 3)) (ev) (E) (h : obliqueEigen3 b s = some (ev, E)) :
    ∃ l, ev = (fun i => Fl.fin (l i)) ∧ Decomposes (covariance s) l E ∧ det3 E = if b then -1 else 1 := by
  unfold obliqueEigen3 at h
  split at h
  · rename_i hs
    cases h
    subst hs
    exact ⟨_, rfl, oblique3_decomposes b, oblique3_det b⟩
  · cases h

theorem oblique3_runs (exp : Multiset (Pt ℝ 3) → Bool) :
    ∃ st, gridRun (shapeGeo 3) true exp [.insert id obliquePoints3] ((Kind.dynamic 0 0).init (Multiset (Pt ℝ 3))) = some st ∧ st.content 0 (fun _ => 0) = some (obliquePoints3 : Multiset (Pt ℝ 3)) := by
  refine shape_runs exp obliquePoints3 ?_ (by simp [obliquePoints3])
  intro p hp a
  simp only [obliquePoints3, List.mem_cons, List.not_mem_nil, or_false] at hp
  rcases hp with rfl | rfl | rfl | rfl <;> fin_cases a <;> norm_num

/-- Non-vacuity in three dimensions, with a half turn about the x axis as the rotation of the map. -/
example (exp : Multiset (Pt ℝ 3) → Bool) : ∃ st, gridRun (shapeGeo 3) true exp [.insert id obliquePoints3] ((Kind.dynamic 0 0).init (Multiset (Pt ℝ 3))) = some st ∧
    ∃ m ∈ markersNdt (viz3 (1 / 10000)) (shapeViz3 ![1, 2, 3] ⟨0, 1, 0, 0⟩ (obliqueEigen3 false) fun _ => ()) marker00 [] st,
      MarkerFits3 (1 / 10000) (moved3 ![1, 2, 3] ⟨0, 1, 0, 0⟩) covariance (obliquePoints3 : Multiset (Pt ℝ 3)) m := by
  obtain ⟨st, h1, h2⟩ := oblique3_runs exp
  refine ⟨st, h1, ?_⟩
  obtain ⟨keys, ms, hL, hm, hlen, hk⟩ := C107_ndt_3d_partial (.dynamic 0 0) (shapeGeo 3) exp _ st h1 ![1, 2, 3] ⟨0, 1, 0, 0⟩ (by norm_num [quatNormSq]) (obliqueEigen3 false) (fun _ => ()) covariance
    (fun s ev E h => by simpa using obliqueEigen3_spec false s ev E h) (1 / 10000) (by norm_num) marker00 rfl []
  obtain ⟨i, hi⟩ := List.mem_iff_getElem?.1 ((hL.2 0 fun _ => 0).2 ⟨by norm_num, _, h2, by simp [obliqueEigen3]⟩)
  obtain ⟨s, m, hs, hmi, hf⟩ := hk i 0 _ hi
  cases h2.symm.trans hs
  refine ⟨m, ?_, hf⟩
  rw [hm]
  exact List.mem_append_right _ (List.mem_cons_of_mem _ (List.mem_of_getElem? hmi))

/-- **C107** is false of the three-dimensional code as well. -/
theorem C107_reflected_3d_refuted (exp : Multiset (Pt ℝ 3) → Bool) : ∃ st, gridRun (shapeGeo 3) true exp [.insert id obliquePoints3] ((Kind.dynamic 0 0).init (Multiset (Pt ℝ 3))) = some st ∧
    ∃ eigen : Multiset (Pt ℝ 3) → Option ((Fin 3 → Fl ℝ) × (Fin 3 → Fin 3 → ℝ)),
      (∀ s ev E, eigen s = some (ev, E) → ∃ l, ev = (fun i => Fl.fin (l i)) ∧ Decomposes (covariance s) l E) ∧
      ∃ c k s, st.content c k = some s ∧ eigen s ≠ none ∧
        ∃ m ∈ markersNdt (viz3 (1 / 10000)) (shapeViz3 0 ⟨1, 0, 0, 0⟩ eigen fun _ => ()) marker00 [] st, m.position = centroid s ∧
          ¬ ShowsEllipsoid (1 / 10000) id (centroid s) (covariance s) (Shown m) := by
  obtain ⟨st, h1, h2⟩ := oblique3_runs exp
  refine ⟨st, h1, obliqueEigen3 true, fun s ev E h => ?_, 0, fun _ => 0, _, h2, by simp [obliqueEigen3], ?_⟩
  · obtain ⟨l, a, b, _⟩ := obliqueEigen3_spec true s ev E h
    exact ⟨l, a, b⟩
  obtain ⟨keys, ms, hL, hm, hlen, hk⟩ := C71_markers_ndt (.dynamic 0 0) (shapeGeo 3) exp _ st h1 (viz3 (1 / 10000)) (shapeViz3 0 ⟨1, 0, 0, 0⟩ (obliqueEigen3 true) fun _ => ()) marker00 rfl []
  obtain ⟨i, hi⟩ := List.mem_iff_getElem?.1 ((hL.2 0 fun _ => 0).2 ⟨by norm_num, _, h2, by simp [shapeViz3, obliqueEigen3]⟩)
  obtain ⟨s, hs, hmi⟩ := hk i 0 _ hi
  cases h2.symm.trans hs
  have heig : obliqueEigen3 true (obliquePoints3 : Multiset (Pt ℝ 3)) = some (fun i => .fin ((![4, 1, 1] : Fin 3 → ℝ) i), obliqueVectors3 true) := if_pos rfl
  unfold markerFor at hmi
  rw [show (shapeViz3 0 ⟨1, 0, 0, 0⟩ (obliqueEigen3 true) fun _ => ()).eigen = obliqueEigen3 true from rfl, heig, Option.map_some] at hmi
  have hpos : moved3 0 ⟨1, 0, 0, 0⟩ (centroid (obliquePoints3 : Multiset (Pt ℝ 3))) = centroid (obliquePoints3 : Multiset (Pt ℝ 3)) := by
    funext a
    fin_cases a <;> simp [moved3, Quat.rotate]
  refine ⟨_, by rw [hm]; exact List.mem_append_right _ (List.mem_cons_of_mem _ (List.mem_of_getElem? hmi)), hpos, ?_⟩
  rintro ⟨_, hS, _⟩
  have hE : obliqueVectors3 true = embed2 (obliqueVectors true) := by
    funext i j
    fin_cases i <;> fin_cases j <;> rfl
  have hq : orient3 ⟨1, 0, 0, 0⟩ (obliqueVectors3 true) = ⟨√(1 / 2), 0, 0, 0⟩ := by
    have := C107_reflected_2d 0 _ (oblique_decomposes true).unit (oblique_det true)
    unfold orient2 quatOfYaw at this
    rw [hE]
    simpa [orient3] using this
  have key := hS ![6, 4, 4]
  refine absurd (key ?_) ?_
  rotate_left
  · rintro ⟨x, hx, y, hy, hxy⟩
    have h0 := hx ![1, 0, 0]
    rw [oblique3_covariance] at h0
    have e0 : (6 : ℝ) = 4 + (x 0 + y 0) := by have := congrFun hxy 0; rwa [oblique3_centroid] at this
    simp [Fin.sum_univ_three] at h0 hy
    have := sq_nonneg (y 1)
    have := sq_nonneg (y 2)
    have hy0 : y 0 ^ 2 ≤ (1 / 2) ^ 2 := by norm_num at hy ⊢; nlinarith
    have hy1 : y 0 ≤ 1 / 2 := by nlinarith
    nlinarith
  refine ⟨![4, 2, 2], ![1, 0, 0], ?_, ?_, ?_⟩
  · intro i
    have e4 : √(4 : ℝ) = 2 := by rw [show (4 : ℝ) = 2 ^ 2 by norm_num]; exact sqrt_sq (by norm_num)
    refine ((C71_geometry (1 / 10000 : ℝ) flSqrt).2.2.2.2.2 i (fun i => .fin ((![4, 1, 1] : Fin 3 → ℝ) i)) (√((![4, 1, 1] : Fin 3 → ℝ) i)) (flSqrt_fin (by fin_cases i <;> simp))).trans ?_
    fin_cases i
    · show Fl.fin (max (1 / 10000) (2 * √(4 : ℝ))) = Fl.fin 4
      rw [e4]; norm_num
    · show Fl.fin (max (1 / 10000) (2 * √(1 : ℝ))) = Fl.fin 2
      rw [sqrt_one]; norm_num
    · show Fl.fin (max (1 / 10000) (2 * √(1 : ℝ))) = Fl.fin 2
      rw [sqrt_one]; norm_num
  · simp [Fin.sum_univ_three]
  · funext i
    show _ = moved3 0 ⟨1, 0, 0, 0⟩ (centroid _) i + turn (orient3 ⟨1, 0, 0, 0⟩ (obliqueVectors3 true)) _ i
    have hh : √(1 / 2 : ℝ) ^ 2 = 1 / 2 := sq_sqrt (by norm_num)
    rw [hq, hpos, oblique3_centroid]
    fin_cases i <;> simp only [turn, hh] <;> simp <;> norm_num

end Ndt
