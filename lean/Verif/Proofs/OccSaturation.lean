import Verif.Proofs.OccFormat
import Mathlib.Analysis.SpecialFunctions.Log.Basic

/-! Lemmas for C120: where the computed probability of given log odds is exactly 0 or 1. -/

namespace Ndt
open Spec

variable (t : Nat) (ht : 1 ≤ t) (X : ExpFn)

theorem exp_log_two (k : Int) : Real.exp ((k : ℝ) * Real.log 2) = (2 : ℝ) ^ k := by
  rw [mul_comm, Real.exp_mul, Real.exp_log two_pos, Real.rpow_intCast]

theorem ExpFn.above (he : X.e ≤ 1 / 8) {k : Int} {x : ℝ} (h : (k : ℝ) * Real.log 2 ≤ x) : (2 : ℝ) ^ (k - 1) ≤ X.f x := by
  have h1 := Real.exp_le_exp.2 h
  rw [exp_log_two] at h1
  have h2 := (abs_le.1 (X.err x)).1
  have h3 : X.e * Real.exp x ≤ 1 / 8 * Real.exp x := mul_le_mul_of_nonneg_right he (Real.exp_pos x).le
  have h4 : (2 : ℝ) ^ (k - 1) = (2 : ℝ) ^ k / 2 := by rw [zpow_sub_one₀ two_ne_zero]; rfl
  have h5 := zpow_pos (two_pos (α := ℝ)) k
  rw [h4]; linarith

theorem ExpFn.below (he : X.e ≤ 1 / 8) {k : Int} {x : ℝ} (h : x ≤ (k : ℝ) * Real.log 2) : X.f x ≤ 9 / 8 * (2 : ℝ) ^ k := by
  have h1 := Real.exp_le_exp.2 h
  rw [exp_log_two] at h1
  have h2 := (abs_le.1 (X.err x)).2
  have h3 : X.e * Real.exp x ≤ 1 / 8 * Real.exp x := mul_le_mul_of_nonneg_right he (Real.exp_pos x).le
  linarith

theorem logOddsFromR_one (he : X.e ≤ 1 / 8) {x : ℝ} (h : ((t : ℝ) + 3) * Real.log 2 ≤ x) : logOddsFromR (ieee ℝ t ht) X x = 1 := by
  have h1 := X.above he (k := (t : Int) + 3) (x := x) (by push_cast; exact h)
  rw [show (t : Int) + 3 - 1 = (t : Int) + 2 by ring] at h1
  show toBits t (1 - toBits t (1 / toBits t (1 + X.f x))) = 1
  have hp := zpow_pos (two_pos (α := ℝ)) ((t : Int) + 2)
  have h2 := toBits_mono t ht _ _ (show (2 : ℝ) ^ ((t : Int) + 2) ≤ 1 + X.f x by linarith)
  rw [toBits_two_pow t ht] at h2
  have h3 : 1 / toBits t (1 + X.f x) ≤ (2 : ℝ) ^ (-((t : Int) + 2)) := by
    rw [zpow_neg, ← one_div]; exact one_div_le_one_div_of_le hp h2
  have h4 := toBits_mono t ht _ _ h3
  rw [toBits_two_pow t ht] at h4
  refine toBits_tiny_below t ht (toBits_nonneg t (by have := hp.trans_le h2; positivity)) (h4.trans_lt ?_)
  rw [← zpow_natCast, ← zpow_neg]
  exact zpow_lt_zpow_right₀ one_lt_two (by push_cast; omega)

theorem logOddsFromR_zero (he : X.e ≤ 1 / 8) {x : ℝ} (h : x ≤ -((t : ℝ) + 2) * Real.log 2) : logOddsFromR (ieee ℝ t ht) X x = 0 := by
  have h1 := X.below he (k := -((t : Int) + 2)) (x := x) (by push_cast; push_cast at h; linarith)
  show toBits t (1 - toBits t (1 / toBits t (1 + X.f x))) = 0
  have e : (2 : ℝ) ^ (-((t : Int) + 2)) = ((2 : ℝ) ^ t)⁻¹ / 4 := by
    rw [neg_add, zpow_add₀ two_ne_zero, zpow_neg, zpow_natCast]; norm_num; ring
  have hp : (0 : ℝ) < ((2 : ℝ) ^ t)⁻¹ := by positivity
  rw [toBits_tiny t ht (X.pos x) (by rw [e] at h1; linarith), div_one, toBits_one t ht, sub_self]
  exact toBits_zero t

theorem hasBits_below_one (k : Nat) (hk : k ≤ t) : HasBits t (1 - (2 : ℝ) ^ (-(k : Int))) := by
  refine ⟨2 ^ k - 1, -(k : Int), ?_, ?_⟩
  · have h1 : (1 : Int) ≤ 2 ^ k := one_le_pow₀ (by norm_num)
    have h2 : (2 : Int) ^ k ≤ 2 ^ t := pow_le_pow_right₀ (by norm_num) hk
    rw [abs_of_nonneg (by omega)]; omega
  · push_cast
    rw [zpow_neg, zpow_natCast, sub_mul, mul_inv_cancel₀ (by positivity), one_mul]

theorem hasBits_above_one (k : Nat) (hk : k + 1 < t) : HasBits t (1 + (2 : ℝ) ^ (-(k : Int))) := by
  refine ⟨2 ^ k + 1, -(k : Int), ?_, ?_⟩
  · have h1 : (1 : Int) ≤ 2 ^ k := one_le_pow₀ (by norm_num)
    have h2 : (2 : Int) ^ (k + 2) ≤ 2 ^ t := pow_le_pow_right₀ (by norm_num) (by omega)
    rw [pow_add] at h2
    rw [abs_of_nonneg (by omega)]; omega
  · push_cast
    rw [zpow_neg, zpow_natCast, add_mul, mul_inv_cancel₀ (by positivity), one_mul]

theorem logOddsFromR_lt_one (ht2 : 2 ≤ t) (he : X.e ≤ 1 / 8) {x : ℝ} (h : x ≤ ((t : ℝ) - 2) * Real.log 2) : logOddsFromR (ieee ℝ t ht) X x < 1 := by
  have h1 := X.below he (k := (t : Int) - 2) (x := x) (by push_cast; exact h)
  show toBits t (1 - toBits t (1 / toBits t (1 + X.f x))) < 1
  have e : (2 : ℝ) ^ (t : Int) = 4 * (2 : ℝ) ^ ((t : Int) - 2) := by rw [zpow_sub₀ two_ne_zero]; norm_num; ring
  have hg : (1 : ℝ) ≤ (2 : ℝ) ^ ((t : Int) - 2) := one_le_zpow₀ one_le_two (by omega)
  have h2 := toBits_mono t ht _ _ (show 1 + X.f x ≤ (2 : ℝ) ^ (t : Int) by rw [e]; linarith)
  rw [toBits_two_pow t ht] at h2
  have hz : (1 : ℝ) ≤ toBits t (1 + X.f x) := by
    have := toBits_mono t ht _ _ (show (1 : ℝ) ≤ 1 + X.f x by linarith [X.pos x])
    rwa [toBits_one t ht] at this
  have h3 : (2 : ℝ) ^ (-(t : Int)) ≤ 1 / toBits t (1 + X.f x) := by
    rw [zpow_neg, ← one_div]; exact one_div_le_one_div_of_le (by linarith) h2
  have h4 := toBits_mono t ht _ _ h3
  rw [toBits_two_pow t ht] at h4
  have h5 := toBits_mono t ht _ _ (show 1 - toBits t (1 / toBits t (1 + X.f x)) ≤ 1 - (2 : ℝ) ^ (-(t : Int)) by linarith)
  rw [toBits_of_hasBits t ht (hasBits_below_one t t le_rfl)] at h5
  have := zpow_pos (two_pos (α := ℝ)) (-(t : Int))
  linarith

theorem logOddsFromR_positive (ht4 : 4 ≤ t) (he : X.e ≤ 1 / 8) {x : ℝ} (h : -((t : ℝ) - 4) * Real.log 2 ≤ x) : 0 < logOddsFromR (ieee ℝ t ht) X x := by
  have h1 := X.above he (k := -((t : Int) - 4)) (x := x) (by push_cast; exact h)
  show 0 < toBits t (1 - toBits t (1 / toBits t (1 + X.f x)))
  obtain ⟨k, hk⟩ : ∃ k : Nat, t = k + 3 := ⟨t - 3, by omega⟩
  have ek : -((t : Int) - 4) - 1 = -(k : Int) := by omega
  rw [ek] at h1
  have hy := zpow_pos (two_pos (α := ℝ)) (-(k : Int))
  have hy1 : (2 : ℝ) ^ (-(k : Int)) ≤ 1 := zpow_le_one_of_nonpos₀ one_le_two (by omega)
  have e : (2 : ℝ) ^ (-((k + 1 : Nat) : Int)) = (2 : ℝ) ^ (-(k : Int)) / 2 := by
    rw [show -((k + 1 : Nat) : Int) = -(k : Int) - 1 by push_cast; ring, zpow_sub_one₀ two_ne_zero]; rfl
  have h2 := toBits_mono t ht _ _ (show 1 + (2 : ℝ) ^ (-(k : Int)) ≤ 1 + X.f x by linarith)
  rw [toBits_of_hasBits t ht (hasBits_above_one t k (by omega))] at h2
  have h3 : 1 / toBits t (1 + X.f x) ≤ 1 - (2 : ℝ) ^ (-((k + 1 : Nat) : Int)) := by
    rw [e, div_le_iff₀ (by linarith)]
    nlinarith
  have h4 := toBits_mono t ht _ _ h3
  rw [toBits_of_hasBits t ht (hasBits_below_one t (k + 1) (by omega))] at h4
  have h5 := toBits_mono t ht _ _ (show (2 : ℝ) ^ (-((k + 1 : Nat) : Int)) ≤ 1 - toBits t (1 / toBits t (1 + X.f x)) by linarith)
  rw [toBits_two_pow t ht] at h5
  exact (zpow_pos two_pos _).trans_le h5

end Ndt
