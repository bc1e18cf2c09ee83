import Verif.Model.Interpolation
import Mathlib.Analysis.Calculus.Deriv.Add
import Mathlib.Analysis.Calculus.Deriv.Mul
import Mathlib.Analysis.Calculus.Deriv.Pow
import Mathlib.Analysis.Calculus.Deriv.Comp
import Mathlib.Tactic.LinearCombination

/-! Catmull-Rom splines over infinite grids: pieces fit together, differentiability, continuity, range. -/

namespace Ndt.Matching
open Topology Filter

/-- the piece over `[n, n+1]` -/
noncomputable def piece (v : Int → ℝ) (n : Int) (x : ℝ) : ℝ := hermite (v (n - 1)) (v n) (v (n + 1)) (v (n + 2)) (x - n)
noncomputable def pieceSlope (v : Int → ℝ) (n : Int) (x : ℝ) : ℝ := hermiteSlope (v (n - 1)) (v n) (v (n + 1)) (v (n + 2)) (x - n)
noncomputable def spline (v : Int → ℝ) (x : ℝ) : ℝ := piece v ⌊x⌋ x
noncomputable def splineSlope (v : Int → ℝ) (x : ℝ) : ℝ := pieceSlope v ⌊x⌋ x

theorem hermite_zero (p0 p1 p2 p3 : ℝ) : hermite p0 p1 p2 p3 0 = p1 := by unfold hermite; ring

theorem hasDerivAt_hermite (p0 p1 p2 p3 x : ℝ) : HasDerivAt (hermite p0 p1 p2 p3) (hermiteSlope p0 p1 p2 p3 x) x := by
  have h : hermite p0 p1 p2 p3 = fun y => p1 + 1 / 2 * (-p0 + p2) * y + 1 / 2 * (2 * p0 - 5 * p1 + 4 * p2 - p3) * y ^ 2 + 1 / 2 * (-p0 + 3 * p1 - 3 * p2 + p3) * y ^ 3 := by
    funext y; unfold hermite; ring
  rw [h]
  have h1 : HasDerivAt (fun y : ℝ => y) 1 x := hasDerivAt_id x
  have h2 : HasDerivAt (fun y : ℝ => y ^ 2) (2 * x) x := by simpa using hasDerivAt_pow 2 x
  have h3 : HasDerivAt (fun y : ℝ => y ^ 3) (3 * x ^ 2) x := by simpa using hasDerivAt_pow 3 x
  have := (((hasDerivAt_const x p1).add (h1.const_mul (1 / 2 * (-p0 + p2)))).add (h2.const_mul (1 / 2 * (2 * p0 - 5 * p1 + 4 * p2 - p3)))).add (h3.const_mul (1 / 2 * (-p0 + 3 * p1 - 3 * p2 + p3)))
  refine HasDerivAt.congr_deriv this ?_
  unfold hermiteSlope; ring

theorem hasDerivAt_piece (v : Int → ℝ) (n : Int) (x : ℝ) : HasDerivAt (piece v n) (pieceSlope v n x) x := by
  unfold piece pieceSlope
  have := (hasDerivAt_hermite (v (n - 1)) (v n) (v (n + 1)) (v (n + 2)) (x - n)).comp x ((hasDerivAt_id x).sub_const (n : ℝ))
  rwa [mul_one] at this

theorem piece_end (v : Int → ℝ) (n : Int) : piece v (n - 1) n = piece v n n := by
  unfold piece hermite
  have e : n - 1 + 1 = n := by ring
  rw [e]; push_cast; ring

theorem pieceSlope_end (v : Int → ℝ) (n : Int) : pieceSlope v (n - 1) n = pieceSlope v n n := by
  unfold pieceSlope hermiteSlope
  have e : n - 1 + 1 = n := by ring
  have e' : n - 1 + 2 = n + 1 := by ring
  rw [e, e']; push_cast; ring

/-- around a point the floor is the floor of the point or its ceiling minus one -/
theorem floor_near (x : ℝ) : ∀ᶠ y in 𝓝 x, (x ≤ y → ⌊y⌋ = ⌊x⌋) ∧ (y < x → ⌊y⌋ = ⌈x⌉ - 1) := by
  have h1 : ∀ᶠ y in 𝓝 x, y < (⌊x⌋ : ℝ) + 1 := eventually_lt_nhds (Int.lt_floor_add_one x)
  have h2 : ∀ᶠ y in 𝓝 x, (⌈x⌉ : ℝ) - 1 < y := eventually_gt_nhds (by have := Int.ceil_lt_add_one x; linarith)
  filter_upwards [h1, h2] with y h1 h2
  refine ⟨fun h => Int.floor_eq_iff.2 ⟨(Int.floor_le x).trans h, h1⟩, fun h => Int.floor_eq_iff.2 ⟨by push_cast; exact h2.le, ?_⟩⟩
  have := Int.le_ceil x
  push_cast; linarith

theorem ceil_or (x : ℝ) : ⌈x⌉ - 1 = ⌊x⌋ ∨ (x = ⌊x⌋ ∧ ⌈x⌉ = ⌊x⌋) := by
  by_cases h : (⌊x⌋ : ℝ) = x
  · right; refine ⟨h.symm, ?_⟩
    conv_lhs => rw [← h]
    exact Int.ceil_intCast _
  · left
    have h1 : (⌊x⌋ : ℝ) < x := lt_of_le_of_ne (Int.floor_le x) h
    have h2 : ⌈x⌉ = ⌊x⌋ + 1 := Int.ceil_eq_iff.2 ⟨by push_cast; linarith, by push_cast; exact (Int.lt_floor_add_one x).le⟩
    omega

theorem piece_left (v : Int → ℝ) (x : ℝ) : piece v (⌈x⌉ - 1) x = spline v x := by
  unfold spline
  rcases ceil_or x with h | ⟨h, h'⟩
  · rw [h]
  · rw [h']
    conv_lhs => rw [h]
    rw [Int.floor_intCast, piece_end, ← h]

theorem pieceSlope_left (v : Int → ℝ) (x : ℝ) : pieceSlope v (⌈x⌉ - 1) x = splineSlope v x := by
  unfold splineSlope
  rcases ceil_or x with h | ⟨h, h'⟩
  · rw [h]
  · rw [h']
    conv_lhs => rw [h]
    rw [Int.floor_intCast, pieceSlope_end, ← h]

/-- the spline is differentiable everywhere, on the grid as well, and the slope is its derivative -/
theorem hasDerivAt_spline (v : Int → ℝ) (x : ℝ) : HasDerivAt (spline v) (splineSlope v x) x := by
  have hn := floor_near x
  have hr : HasDerivWithinAt (spline v) (splineSlope v x) (Set.Ici x) x := by
    refine ((hasDerivAt_piece v ⌊x⌋ x).hasDerivWithinAt (s := Set.Ici x)).congr_of_eventuallyEq ?_ rfl
    filter_upwards [nhdsWithin_le_nhds hn, self_mem_nhdsWithin] with y h1 h2
    unfold spline; rw [h1.1 h2]
  have hl : HasDerivWithinAt (spline v) (splineSlope v x) (Set.Iic x) x := by
    rw [← pieceSlope_left]
    refine ((hasDerivAt_piece v (⌈x⌉ - 1) x).hasDerivWithinAt (s := Set.Iic x)).congr_of_eventuallyEq ?_ (piece_left v x).symm
    filter_upwards [nhdsWithin_le_nhds hn, self_mem_nhdsWithin] with y h1 h2
    rcases lt_or_eq_of_le (show y ≤ x from h2) with h | h
    · unfold spline; rw [h1.2 h]
    · rw [h]; exact (piece_left v x).symm
  have := hl.union hr
  rwa [Set.Iic_union_Ici, hasDerivWithinAt_univ] at this

theorem hermite_eq (p0 p1 p2 p3 x : ℝ) : hermite p0 p1 p2 p3 x = hermite 1 0 0 0 x * p0 + hermite 0 1 0 0 x * p1 + hermite 0 0 1 0 x * p2 + hermite 0 0 0 1 x * p3 := by
  unfold hermite; ring

theorem hermiteSlope_eq (p0 p1 p2 p3 x : ℝ) :
    hermiteSlope p0 p1 p2 p3 x = hermiteSlope 1 0 0 0 x * p0 + hermiteSlope 0 1 0 0 x * p1 + hermiteSlope 0 0 1 0 x * p2 + hermiteSlope 0 0 0 1 x * p3 := by
  unfold hermiteSlope; ring

/-- values that depend on a parameter: derivative by the parameter -/
theorem hasDerivAt_spline_param (A A' : Int → ℝ → ℝ) (r c : ℝ) (h : ∀ i, HasDerivAt (A i) (A' i c) c) :
    HasDerivAt (fun c => spline (fun i => A i c) r) (spline (fun i => A' i c) r) c := by
  unfold spline piece
  rw [hermite_eq]
  have := ((((h (⌊r⌋ - 1)).const_mul (hermite 1 0 0 0 (r - ⌊r⌋))).add ((h ⌊r⌋).const_mul (hermite 0 1 0 0 (r - ⌊r⌋)))).add ((h (⌊r⌋ + 1)).const_mul (hermite 0 0 1 0 (r - ⌊r⌋)))).add
    ((h (⌊r⌋ + 2)).const_mul (hermite 0 0 0 1 (r - ⌊r⌋)))
  refine this.congr_of_eventuallyEq (Eventually.of_forall fun y => ?_)
  exact hermite_eq _ _ _ _ _

theorem continuous_glue (P : Int → ℝ × ℝ → ℝ) (hP : ∀ n, Continuous (P n)) (hglue : ∀ x y, P (⌈x⌉ - 1) (x, y) = P ⌊x⌋ (x, y)) :
    Continuous fun p : ℝ × ℝ => P ⌊p.1⌋ p := by
  refine continuous_iff_continuousAt.2 fun p => ?_
  have hn : ∀ᶠ q : ℝ × ℝ in 𝓝 p, (p.1 ≤ q.1 → ⌊q.1⌋ = ⌊p.1⌋) ∧ (q.1 < p.1 → ⌊q.1⌋ = ⌈p.1⌉ - 1) := (continuous_fst.tendsto p).eventually (floor_near p.1)
  rw [ContinuousAt, tendsto_def]
  intro V hV
  have h1 : ∀ᶠ q in 𝓝 p, P ⌊p.1⌋ q ∈ V := (hP ⌊p.1⌋).continuousAt hV
  have h2 : ∀ᶠ q in 𝓝 p, P (⌈p.1⌉ - 1) q ∈ V := (hP (⌈p.1⌉ - 1)).continuousAt (by rw [show p = (p.1, p.2) from rfl, hglue]; exact hV)
  filter_upwards [hn, h1, h2] with q h h1 h2
  show P ⌊q.1⌋ q ∈ V
  rcases le_or_gt p.1 q.1 with hh | hh
  · rw [h.1 hh]; exact h1
  · rw [h.2 hh]; exact h2

theorem continuous_spline_param (A : Int → ℝ → ℝ) (h : ∀ i, Continuous (A i)) : Continuous fun p : ℝ × ℝ => spline (fun i => A i p.2) p.1 := by
  refine continuous_glue (fun n p => piece (fun i => A i p.2) n p.1) (fun n => ?_) fun x y => piece_left _ _
  have := h (n - 1); have := h n; have := h (n + 1); have := h (n + 2)
  unfold piece hermite
  fun_prop

theorem continuous_splineSlope_param (A : Int → ℝ → ℝ) (h : ∀ i, Continuous (A i)) : Continuous fun p : ℝ × ℝ => splineSlope (fun i => A i p.2) p.1 := by
  refine continuous_glue (fun n p => pieceSlope (fun i => A i p.2) n p.1) (fun n => ?_) fun x y => pieceSlope_left _ _
  have := h (n - 1); have := h n; have := h (n + 1); have := h (n + 2)
  unfold pieceSlope hermiteSlope
  fun_prop

theorem continuous_spline (v : Int → ℝ) : Continuous (spline v) :=
  (continuous_spline_param (fun i _ => v i) fun _ => continuous_const).comp (continuous_id.prodMk (continuous_const (y := (0 : ℝ))))

theorem continuous_splineSlope (v : Int → ℝ) : Continuous (splineSlope v) :=
  (continuous_splineSlope_param (fun i _ => v i) fun _ => continuous_const).comp (continuous_id.prodMk (continuous_const (y := (0 : ℝ))))

/-- an interpolated value leaves the range of its four arguments by at most an eighth of its width -/
theorem hermite_range {lo hi p0 p1 p2 p3 x : ℝ} (h0 : lo ≤ p0 ∧ p0 ≤ hi) (h1 : lo ≤ p1 ∧ p1 ≤ hi) (h2 : lo ≤ p2 ∧ p2 ≤ hi) (h3 : lo ≤ p3 ∧ p3 ≤ hi) (hx : 0 ≤ x ∧ x ≤ 1) :
    lo - (hi - lo) / 8 ≤ hermite p0 p1 p2 p3 x ∧ hermite p0 p1 p2 p3 x ≤ hi + (hi - lo) / 8 := by
  obtain ⟨hx0, hx1⟩ := hx
  have w0 : 0 ≤ x * (1 - x) ^ 2 / 2 := by have := mul_nonneg hx0 (sq_nonneg (1 - x)); linarith
  have w3 : 0 ≤ x ^ 2 * (1 - x) / 2 := by have := mul_nonneg (sq_nonneg x) (sub_nonneg.2 hx1); linarith
  have w1 : 0 ≤ 1 - 5 / 2 * x ^ 2 + 3 / 2 * x ^ 3 := by
    have : 0 ≤ (1 - x) * (1 + x - 3 / 2 * x ^ 2) := mul_nonneg (sub_nonneg.2 hx1) (by nlinarith)
    linarith [this, show (1 - x) * (1 + x - 3 / 2 * x ^ 2) = 1 - 5 / 2 * x ^ 2 + 3 / 2 * x ^ 3 by ring]
  have w2 : 0 ≤ x / 2 + 2 * x ^ 2 - 3 / 2 * x ^ 3 := by
    have : 0 ≤ x * (1 / 2 + 2 * x - 3 / 2 * x ^ 2) := mul_nonneg hx0 (by nlinarith)
    linarith [this, show x * (1 / 2 + 2 * x - 3 / 2 * x ^ 2) = x / 2 + 2 * x ^ 2 - 3 / 2 * x ^ 3 by ring]
  have hw : 0 ≤ (hi - lo) * (1 / 8 - x * (1 - x) / 2) := mul_nonneg (by linarith [h0.1, h0.2]) (by nlinarith [sq_nonneg (x - 1 / 2)])
  have e : hermite p0 p1 p2 p3 x = -(x * (1 - x) ^ 2 / 2) * p0 + (1 - 5 / 2 * x ^ 2 + 3 / 2 * x ^ 3) * p1 + (x / 2 + 2 * x ^ 2 - 3 / 2 * x ^ 3) * p2 - x ^ 2 * (1 - x) / 2 * p3 := by
    unfold hermite; ring
  rw [e]
  have a0 := mul_nonneg w0 (sub_nonneg.2 h0.1)
  have a1 := mul_nonneg w1 (sub_nonneg.2 h1.1)
  have a2 := mul_nonneg w2 (sub_nonneg.2 h2.1)
  have a3 := mul_nonneg w3 (sub_nonneg.2 h3.1)
  have b0 := mul_nonneg w0 (sub_nonneg.2 h0.2)
  have b1 := mul_nonneg w1 (sub_nonneg.2 h1.2)
  have b2 := mul_nonneg w2 (sub_nonneg.2 h2.2)
  have b3 := mul_nonneg w3 (sub_nonneg.2 h3.2)
  constructor
  · linarith [a1, a2, b0, b3, hw]
  · linarith [b1, b2, a0, a3, hw]

theorem fract_range (x : ℝ) : 0 ≤ x - ⌊x⌋ ∧ x - ⌊x⌋ ≤ 1 := ⟨by have := Int.floor_le x; linarith, by have := Int.lt_floor_add_one x; linarith⟩

theorem spline_range {lo hi : ℝ} (v : Int → ℝ) (h : ∀ i, lo ≤ v i ∧ v i ≤ hi) (x : ℝ) : lo - (hi - lo) / 8 ≤ spline v x ∧ spline v x ≤ hi + (hi - lo) / 8 :=
  hermite_range (h _) (h _) (h _) (h _) (fract_range x)

/-- the interpolator over a grid that is defined everywhere -/
theorem bicubic_total (v : Int → Int → ℝ) (r c : ℝ) : bicubic (fun i j => some (v i j)) r c =
    some ⟨spline (fun i => spline (v i) c) r, splineSlope (fun i => spline (v i) c) r, spline (fun i => splineSlope (v i) c) r⟩ := rfl

/-- only the 16 values around the point matter -/
theorem bicubic_getD (grid : Int → Int → Option ℝ) (r c : ℝ) (j : Jet2) (h : bicubic grid r c = some j) : bicubic (fun i j => some ((grid i j).getD 0)) r c = some j := by
  have key : ∀ row p, gridRow grid row ⌊c⌋ = some p → gridRow (fun i j => some ((grid i j).getD 0)) row ⌊c⌋ = some p := by
    intro row p hp
    unfold gridRow at hp ⊢
    split at hp
    · rename_i a b c d h1 h2 h3 h4
      rw [h1, h2, h3, h4]
      exact hp
    · cases hp
  unfold bicubic at h ⊢
  dsimp only at h ⊢
  split at h
  · rename_i p q s t h1 h2 h3 h4
    rw [key _ _ h1, key _ _ h2, key _ _ h3, key _ _ h4]
    exact h
  · cases h

end Ndt.Matching
