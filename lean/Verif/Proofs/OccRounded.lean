import Verif.Model.OccRounded
import Verif.Props.Occupancy
import Verif.Proofs.SamplingRounded
import Mathlib.Analysis.SpecialFunctions.Sigmoid
import Mathlib.Analysis.Calculus.MeanValue

/-! Lemmas for C88: rounded occupancy values. -/

namespace Ndt

/-! ### Rounding commutes with the embedding of the rationals -/

section cast
variable {K : Type} [Field K] [LinearOrder K] [IsStrictOrderedRing K] [FloorRing K]

theorem log_cast (q : ℚ) : Int.log 2 |(q : K)| = Int.log 2 |q| := by
  rcases eq_or_ne q 0 with h | h
  · subst h; simp
  · have h1 : (0 : ℚ) < |q| := abs_pos.2 h
    have h2 : (0 : K) < |(q : K)| := abs_pos.2 (by exact_mod_cast h)
    apply le_antisymm
    · rw [← Int.zpow_le_iff_le_log one_lt_two h1]
      have := (Int.zpow_le_iff_le_log (R := K) one_lt_two h2).2 le_rfl
      rw [← Rat.cast_le (K := K)]
      push_cast at this ⊢
      exact this
    · rw [← Int.zpow_le_iff_le_log one_lt_two h2]
      have := (Int.zpow_le_iff_le_log (R := ℚ) one_lt_two h1).2 le_rfl
      rw [← Rat.cast_le (K := K)] at this
      push_cast at this ⊢
      exact this

theorem lastBit_cast (t : Nat) (q : ℚ) : lastBit t (q : K) = ((lastBit t q : ℚ) : K) := by
  unfold lastBit
  rw [log_cast]
  push_cast
  rfl

theorem nearestEven_cast (q : ℚ) : nearestEven (q : K) = nearestEven q := by
  unfold nearestEven
  rw [Rat.floor_cast]
  have h1 : (2 * ((q : K) - (⌊q⌋ : Int)) < 1) ↔ 2 * (q - ⌊q⌋) < 1 := by
    rw [← Rat.cast_lt (K := K)]; push_cast; rfl
  have h2 : (1 < 2 * ((q : K) - (⌊q⌋ : Int))) ↔ 1 < 2 * (q - ⌊q⌋) := by
    rw [← Rat.cast_lt (K := K)]; push_cast; rfl
  simp only [h1, h2]

theorem toBits_cast (t : Nat) (q : ℚ) : toBits t (q : K) = ((toBits t q : ℚ) : K) := by
  unfold toBits
  have h : ((q : K) < 0) ↔ q < 0 := by exact_mod_cast Iff.rfl
  simp only [h]
  split_ifs
  · rw [lastBit_cast, show -(q : K) / ((lastBit t q : ℚ) : K) = ((-q / lastBit t q : ℚ) : K) by push_cast; rfl, nearestEven_cast]; push_cast; rfl
  · rw [lastBit_cast, show (q : K) / ((lastBit t q : ℚ) : K) = ((q / lastBit t q : ℚ) : K) by push_cast; rfl, nearestEven_cast]; push_cast; rfl

end cast

/-! ### From log odds to probabilities -/

theorem logOddsFrom_eq_sigmoid (l : ℝ) : logOddsFrom l = Real.sigmoid l := by
  unfold logOddsFrom
  rw [Real.sigmoid_def, Real.exp_neg]
  have := Real.exp_pos l
  field_simp
  ring

theorem sigmoid_lipschitz (a b : ℝ) : |Real.sigmoid a - Real.sigmoid b| ≤ 1 / 4 * |a - b| := by
  have h := Convex.norm_image_sub_le_of_norm_deriv_le (f := Real.sigmoid) (C := 1 / 4) (s := Set.univ) (x := b) (y := a) (fun x _ => differentiable_sigmoid x)
    (fun x _ => by
      rw [Real.deriv_sigmoid, Real.norm_eq_abs, abs_of_nonneg (mul_nonneg (Real.sigmoid_nonneg x) (sub_nonneg.2 (Real.sigmoid_le_one x)))]
      nlinarith [sq_nonneg (Real.sigmoid x - 1 / 2)]) convex_univ (Set.mem_univ _) (Set.mem_univ _)
  simpa [Real.norm_eq_abs] using h

theorem logOddsFrom_lipschitz (a b : ℝ) : |logOddsFrom a - logOddsFrom b| ≤ 1 / 4 * |a - b| := by
  rw [logOddsFrom_eq_sigmoid, logOddsFrom_eq_sigmoid]; exact sigmoid_lipschitz a b

section
variable (R : Rounding ℝ) (X : ExpFn)

theorem one_le_denominator (h1 : R.rnd 1 = 1) (l : ℝ) : 1 ≤ R.rnd (1 + X.f l) := by
  have := R.mono 1 (1 + X.f l) (by linarith [X.pos l])
  rwa [h1] at this

theorem quotient_mem (h1 : R.rnd 1 = 1) (l : ℝ) : 0 ≤ R.rnd (1 / R.rnd (1 + X.f l)) ∧ R.rnd (1 / R.rnd (1 + X.f l)) ≤ 1 := by
  have h := one_le_denominator R X h1 l
  have h0 : 1 / R.rnd (1 + X.f l) ≤ 1 := by rw [div_le_one (by linarith)]; exact h
  exact ⟨R.rnd_nonneg (by positivity), by have := R.mono _ _ h0; rwa [h1] at this⟩

theorem logOddsFromR_mem (h1 : R.rnd 1 = 1) (l : ℝ) : 0 ≤ logOddsFromR R X l ∧ logOddsFromR R X l ≤ 1 := by
  obtain ⟨a, b⟩ := quotient_mem R X h1 l
  unfold logOddsFromR
  refine ⟨R.rnd_nonneg (by linarith), ?_⟩
  have := R.mono (1 - R.rnd (1 / R.rnd (1 + X.f l))) 1 (by linarith)
  rwa [h1] at this

theorem logOddsFromR_mono (h1 : R.rnd 1 = 1) {a b : ℝ} (h : a ≤ b) : logOddsFromR R X a ≤ logOddsFromR R X b := by
  unfold logOddsFromR
  apply R.mono
  apply sub_le_sub_left
  apply R.mono
  apply one_div_le_one_div_of_le
  · linarith [one_le_denominator R X h1 a]
  · apply R.mono
    linarith [X.mono _ _ h]

/-- Rounding after an operation with error `a * A` on a result of size at most `A`. -/
theorem Rounding.err_step (R : Rounding ℝ) {x y A a : ℝ} (h : |x - y| ≤ a * A) (hy : |y| ≤ A) : |R.rnd x - y| ≤ ((1 + R.u) * (1 + a) - 1) * A := by
  have h1 := R.err x
  have h2 : |x| ≤ |x - y| + |y| := by have := abs_add_le (x - y) y; rwa [sub_add_cancel] at this
  have h3 : |R.rnd x - y| ≤ |R.rnd x - x| + |x - y| := abs_sub_le _ _ _
  have h4 := mul_le_mul_of_nonneg_left (h2.trans (add_le_add h hy)) R.nonneg
  nlinarith [R.nonneg]

theorem logOddsFromR_err (h1 : R.rnd 1 = 1) (hu : R.u ≤ 1 / 8) (he : X.e ≤ 1 / 8) (l : ℝ) : |logOddsFromR R X l - logOddsFrom l| ≤ 4 * (R.u + X.e) := by
  have hg := Real.exp_pos l
  have hu0 := R.nonneg
  have he0 := X.nonneg
  have a1 : |(1 + X.f l) - (1 + Real.exp l)| ≤ X.e * (1 + Real.exp l) := by
    rw [add_sub_add_left_eq_sub]
    exact (X.err l).trans (mul_le_mul_of_nonneg_left (by linarith) he0)
  have a2 := R.err_step a1 (le_of_eq (abs_of_pos (by linarith)))
  set a := (1 + R.u) * (1 + X.e) - 1 with ha
  have ha0 : 0 ≤ a := by rw [ha]; nlinarith
  have ha1 : a ≤ 17 / 64 := by rw [ha]; nlinarith
  set x := R.rnd (1 + X.f l) with hx
  have hx1 : 1 ≤ x := one_le_denominator R X h1 l
  set y := 1 + Real.exp l with hy
  have hy1 : 1 < y := by linarith
  have hyi : 0 < 1 / y ∧ 1 / y < 1 := ⟨by positivity, by rw [div_lt_one (by linarith)]; exact hy1⟩
  have b1 : |1 / x - 1 / y| ≤ (64 / 47 * a) * (1 / y) := by
    have hxy : 1 / x - 1 / y = (y - x) / x * (1 / y) := by field_simp
    rw [hxy, abs_mul, abs_of_pos hyi.1, abs_div, abs_of_pos (show (0 : ℝ) < x by linarith), abs_sub_comm]
    apply mul_le_mul_of_nonneg_right _ hyi.1.le
    rw [div_le_iff₀ (by linarith)]
    have : y * (47 / 64) ≤ x := by
      have := (abs_le.1 a2).1
      nlinarith
    nlinarith
  have b2 := R.err_step b1 (le_of_eq (abs_of_pos hyi.1))
  obtain ⟨q0, q1⟩ := quotient_mem R X h1 l
  set q := R.rnd (1 / x) with hq
  have c1 := R.err (1 - q)
  rw [abs_of_nonneg (show (0 : ℝ) ≤ 1 - q by linarith)] at c1
  have c2 : |R.rnd (1 - q) - (1 - 1 / y)| ≤ |R.rnd (1 - q) - (1 - q)| + |(1 - q) - (1 - 1 / y)| := abs_sub_le _ _ _
  have c3 : |(1 - q) - (1 - 1 / y)| = |q - 1 / y| := by rw [← abs_neg]; congr 1; ring
  have c4 : ((1 + R.u) * (1 + 64 / 47 * a) - 1) * (1 / y) ≤ (1 + R.u) * (1 + 64 / 47 * a) - 1 := by
    have : 0 ≤ (1 + R.u) * (1 + 64 / 47 * a) - 1 := by nlinarith
    nlinarith
  have c5 : R.u * (1 - q) ≤ R.u := by nlinarith
  show |R.rnd (1 - q) - (1 - 1 / y)| ≤ _
  have c6 : a ≤ 9 / 8 * R.u + X.e := by rw [ha]; nlinarith
  have c7 : R.u * a ≤ 17 / 64 * R.u := by nlinarith
  nlinarith

/-! ### Evidence -/

theorem evidence_err_core {u : ℝ} (hu : R.u = u) (a b c : ℝ) (k : ℝ) {a' b' c' A B C : ℝ} (hA : |a| ≤ A) (hB : |b| ≤ B) (hC : |c| ≤ C)
    (ha : |a' - a| ≤ k * A) (hb : |b' - b| ≤ k * B) (hc : |c' - c| ≤ ((1 + u) * (1 + k) - 1) * C) :
    |R.rnd (R.rnd (a' + b') - c') - (a + b - c)| ≤ ((1 + u) * ((1 + u) * (1 + k)) - 1) * (A + B + C) := by
  subst hu
  have s1 : |(a' + b') - (a + b)| ≤ k * (A + B) := by
    have := abs_add_le (a' - a) (b' - b)
    rw [show a' - a + (b' - b) = (a' + b') - (a + b) by ring] at this
    linarith
  have s2 : |a + b| ≤ A + B := (abs_add_le _ _).trans (add_le_add hA hB)
  have s3 := R.err_step s1 s2
  have s4 : |(R.rnd (a' + b') - c') - (a + b - c)| ≤ ((1 + R.u) * (1 + k) - 1) * (A + B + C) := by
    have := abs_sub (R.rnd (a' + b') - (a + b)) (c' - c)
    rw [show R.rnd (a' + b') - (a + b) - (c' - c) = (R.rnd (a' + b') - c') - (a + b - c) by ring] at this
    linarith
  have s5 : |a + b - c| ≤ A + B + C := (abs_sub _ _).trans (by linarith)
  have s6 := R.err_step s4 s5
  rw [show (1 + ((1 + R.u) * (1 + k) - 1)) = (1 + R.u) * (1 + k) by ring] at s6
  exact s6

theorem product_err (n w : ℝ) : |R.rnd (R.rnd n * w) - n * w| ≤ ((1 + R.u) ^ 2 - 1) * |n * w| := by
  have h : |R.rnd n * w - n * w| ≤ R.u * |n * w| := by
    rw [← sub_mul, abs_mul, abs_mul, ← mul_assoc]
    exact mul_le_mul_of_nonneg_right (R.err n) (abs_nonneg _)
  have := R.err_step h le_rfl
  rwa [show (1 + R.u) * (1 + R.u) - 1 = (1 + R.u) ^ 2 - 1 by ring] at this

theorem pow_mono_err {u : ℝ} (hu : 0 ≤ u) {m n : Nat} (h : m ≤ n) {a A : ℝ} (hA : 0 ≤ A) (ha : a ≤ ((1 + u) ^ m - 1) * A) : a ≤ ((1 + u) ^ n - 1) * A :=
  ha.trans (mul_le_mul_of_nonneg_right (sub_le_sub_right (pow_le_pow_right₀ (by linarith) h) _) hA)

theorem evidenceR_err (m : Ivm) (f n : Nat) :
    |evidenceR R m f n - ((f : ℝ) * m.logFree + (n : ℝ) * m.logOcc - (wrapMinusOne f n : ℝ) * m.logPrior)| ≤
      ((1 + R.u) ^ 4 - 1) * (|(f : ℝ) * m.logFree| + |(n : ℝ) * m.logOcc| + |(wrapMinusOne f n : ℝ) * m.logPrior|) := by
  have hu := R.nonneg
  have h := evidence_err_core R rfl ((f : ℝ) * m.logFree) ((n : ℝ) * m.logOcc) ((wrapMinusOne f n : ℝ) * m.logPrior) ((1 + R.u) ^ 2 - 1) le_rfl le_rfl le_rfl
    (product_err R _ _) (product_err R _ _) (c' := R.rnd (R.rnd (wrapMinusOne f n : ℝ) * m.logPrior)) (by
      have := pow_mono_err hu (show 2 ≤ 3 by norm_num) (abs_nonneg _) (product_err R (wrapMinusOne f n : ℝ) m.logPrior)
      rwa [show (1 + R.u) * (1 + ((1 + R.u) ^ 2 - 1)) - 1 = (1 + R.u) ^ 3 - 1 by ring])
  rw [show (1 + R.u) * ((1 + R.u) * (1 + ((1 + R.u) ^ 2 - 1))) - 1 = (1 + R.u) ^ 4 - 1 by ring] at h
  exact h

theorem wrapMinusOne_mono {f n f' n' : Nat} (hn : 0 < n) (hf : f ≤ f') (hnn : n ≤ n') (h : f' + n' ≤ 2 ^ 64) : wrapMinusOne f n ≤ wrapMinusOne f' n' := by
  rw [wrapMinusOne_eq hn (by omega), wrapMinusOne_eq (by omega) h]; omega

theorem evidenceR_hits (m : Ivm) (ho : 0 ≤ m.logOcc) (hp : m.logPrior ≤ 0) {f n n' : Nat} (hn : 0 < n) (h : n ≤ n') (hw : f + n' ≤ 2 ^ 64) : evidenceR R m f n ≤ evidenceR R m f n' := by
  unfold evidenceR
  apply R.mono
  apply sub_le_sub
  · apply R.mono
    apply add_le_add le_rfl
    apply R.mono
    exact mul_le_mul_of_nonneg_right (R.mono _ _ (by exact_mod_cast h)) ho
  · apply R.mono
    exact mul_le_mul_of_nonpos_right (R.mono _ _ (by exact_mod_cast wrapMinusOne_mono hn le_rfl h hw)) hp

theorem evidenceR_misses (m : Ivm) (hf : m.logFree ≤ 0) (hp : 0 ≤ m.logPrior) {f f' n : Nat} (hn : 0 < n) (h : f ≤ f') (hw : f' + n ≤ 2 ^ 64) : evidenceR R m f' n ≤ evidenceR R m f n := by
  unfold evidenceR
  apply R.mono
  apply sub_le_sub
  · apply R.mono
    apply add_le_add _ le_rfl
    apply R.mono
    exact mul_le_mul_of_nonpos_right (R.mono _ _ (by exact_mod_cast h)) hf
  · apply R.mono
    exact mul_le_mul_of_nonneg_right (R.mono _ _ (by exact_mod_cast wrapMinusOne_mono hn h le_rfl hw)) hp

end

end Ndt
