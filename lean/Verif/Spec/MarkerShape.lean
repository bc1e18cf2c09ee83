import Verif.Model.MarkerShape

/-!
Specification for C107: ellipsoids, covariance, decompositions, and what a viewer shows for a marker of type `SPHERE` (documentation of `visualization_msgs/Marker`: `scale` is the diameter along the axes, `pose` moves the
object).
-/

namespace Ndt.Spec

open Matching

/-- The ellipsoid of a symmetric matrix `S`: the points whose component in every direction `n` is at most the standard deviation `√(n·S n)` in that direction. (For invertible `S` these are the `x` with `x·S⁻¹ x ≤ 1`.) -/
def Ellipsoid {d : Nat} (S : Fin d → Fin d → ℝ) : Set (Fin d → ℝ) := {x | ∀ n : Fin d → ℝ, (∑ i, n i * x i) ^ 2 ≤ ∑ i, ∑ j, n i * S i j * n j}

/-- `l` and the columns of `E` are eigenvalues and orthonormal eigenvectors of `S`, and `l` is not negative. -/
structure Decomposes {d : Nat} (S : Fin d → Fin d → ℝ) (l : Fin d → ℝ) (E : Fin d → Fin d → ℝ) : Prop where
  nonneg : ∀ k, 0 ≤ l k
  unit : ∀ i j, ∑ k, E k i * E k j = if i = j then 1 else 0
  vectors : ∀ i k, ∑ j, S i j * E j k = l k * E i k

/-- the arithmetic mean of points -/
noncomputable def centroid {d : Nat} (s : Multiset (Pt ℝ d)) : Pt ℝ d := fun a => (s.map fun p => p a).sum / (s.card : ℝ)

/-- the covariance of points (divided by their number) -/
noncomputable def covariance {d : Nat} (s : Multiset (Pt ℝ d)) : Fin d → Fin d → ℝ := fun i j => (s.map fun p => (p i - centroid s i) * (p j - centroid s j)).sum / (s.card : ℝ)

/-- the determinants of 2×2 and 3×3 matrices -/
def det2 (E : Fin 2 → Fin 2 → ℝ) : ℝ := E 0 0 * E 1 1 - E 0 1 * E 1 0
def det3 (E : Fin 3 → Fin 3 → ℝ) : ℝ :=
  E 0 0 * (E 1 1 * E 2 2 - E 1 2 * E 2 1) - E 0 1 * (E 1 0 * E 2 2 - E 1 2 * E 2 0) + E 0 2 * (E 1 0 * E 2 1 - E 1 1 * E 2 0)

/-- The rotation of a quaternion other than zero, normalised: `q v q⁻¹`. -/
noncomputable def turn (q : Quat) (v : Fin 3 → ℝ) : Fin 3 → ℝ :=
  let n := q.w ^ 2 + q.x ^ 2 + q.y ^ 2 + q.z ^ 2
  ![((q.w ^ 2 + q.x ^ 2 - q.y ^ 2 - q.z ^ 2) * v 0 + 2 * (q.x * q.y - q.w * q.z) * v 1 + 2 * (q.x * q.z + q.w * q.y) * v 2) / n,
    (2 * (q.x * q.y + q.w * q.z) * v 0 + (q.w ^ 2 - q.x ^ 2 + q.y ^ 2 - q.z ^ 2) * v 1 + 2 * (q.y * q.z - q.w * q.x) * v 2) / n,
    (2 * (q.x * q.z - q.w * q.y) * v 0 + 2 * (q.y * q.z + q.w * q.x) * v 1 + (q.w ^ 2 - q.x ^ 2 - q.y ^ 2 + q.z ^ 2) * v 2) / n]

/-- The points of the world that a viewer fills for a marker of type `SPHERE`: the unit ball, stretched by half the scale along the axes, rotated and shifted. -/
def Shown {C : Type} (m : Marker ℝ Quat C) : Set (Fin 3 → ℝ) :=
  {p | ∃ s u : Fin 3 → ℝ, (∀ i, m.scale i = .fin (s i)) ∧ ∑ i, u i ^ 2 ≤ 1 ∧ p = fun i => m.position i + turn m.orientation (fun j => s j / 2 * u j) i}

/-- the same, seen from above -/
def Shown2 {C : Type} (m : Marker ℝ Quat C) : Set (Fin 2 → ℝ) := {p | ∃ x ∈ Shown m, p = ![x 0, x 1]}

/-- The region `shown` displays the ellipsoid of `S` around `mean`, moved by `T`, up to a minimal thickness `e`: the ellipsoid is shown, nothing is shown farther than `e / 2` away from it, and exactly the ellipsoid is
shown if it is nowhere thinner than `e`. -/
def ShowsEllipsoid {d : Nat} (e : ℝ) (T : (Fin d → ℝ) → Fin d → ℝ) (mean : Fin d → ℝ) (S : Fin d → Fin d → ℝ) (shown : Set (Fin d → ℝ)) : Prop :=
  (∀ x ∈ Ellipsoid S, T (mean + x) ∈ shown) ∧
  (∀ p ∈ shown, ∃ x ∈ Ellipsoid S, ∃ y : Fin d → ℝ, ∑ i, y i ^ 2 ≤ (e / 2) ^ 2 ∧ p = T (mean + (x + y))) ∧
  ((∀ n : Fin d → ℝ, (e / 2) ^ 2 * ∑ i, n i ^ 2 ≤ ∑ i, ∑ j, n i * S i j * n j) → ∀ p ∈ shown, ∃ x ∈ Ellipsoid S, p = T (mean + x))

/-- What a marker of the three-dimensional conversion must meet for a distribution with the points `s`: its orientation is a unit quaternion, and it shows the ellipsoid of the covariance `cov s`, moved by `T`. -/
def MarkerFits3 {C : Type} (e : ℝ) (T : Pt ℝ 3 → Pt ℝ 3) (cov : Multiset (Pt ℝ 3) → Fin 3 → Fin 3 → ℝ) (s : Multiset (Pt ℝ 3)) (m : Marker ℝ Quat C) : Prop :=
  m.orientation.w ^ 2 + m.orientation.x ^ 2 + m.orientation.y ^ 2 + m.orientation.z ^ 2 = 1 ∧ ShowsEllipsoid e T (centroid s) (cov s) (Shown m)

/-- The same in two dimensions, seen from above. -/
def MarkerFits2 {C : Type} (e : ℝ) (T : Pt ℝ 2 → Pt ℝ 2) (cov : Multiset (Pt ℝ 2) → Fin 2 → Fin 2 → ℝ) (s : Multiset (Pt ℝ 2)) (m : Marker ℝ Quat C) : Prop :=
  m.orientation.w ^ 2 + m.orientation.x ^ 2 + m.orientation.y ^ 2 + m.orientation.z ^ 2 = 1 ∧ ShowsEllipsoid e T (centroid s) (cov s) (Shown2 m)

end Ndt.Spec
