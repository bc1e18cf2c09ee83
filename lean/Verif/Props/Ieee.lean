import Verif.Proofs.Rounding
import Mathlib.Algebra.Group.Int.Even
import Mathlib.Data.Rat.Floor

/-! C77, the rounding itself: `toBits t` is IEEE 754 rounding to nearest, ties to even, for numbers with `t` significant bits. -/

namespace Ndt
section
variable {K : Type} [Field K] [LinearOrder K] [IsStrictOrderedRing K] [FloorRing K]

/-- The numbers with `t` significant bits (without bounds on exponents). -/
def Spec.HasBits (t : Nat) (z : K) : Prop := ∃ m e : Int, |m| < 2 ^ t ∧ z = (m : K) * (2 : K) ^ e

omit [IsStrictOrderedRing K] [FloorRing K] [LinearOrder K] in
theorem Spec.HasBits.neg {t : Nat} {z : K} (h : Spec.HasBits t z) : Spec.HasBits t (-z) := by
  obtain ⟨m, e, h1, h2⟩ := h
  exact ⟨-m, e, by rwa [abs_neg], by rw [h2]; push_cast; ring⟩

/-- no integer is nearer -/
theorem nearestEven_nearest (y : K) (k : Int) : |(nearestEven y : K) - y| ≤ |(k : K) - y| := by
  have h0 := nearestEven_err y
  have h1 := Int.floor_le y
  have h2 := Int.lt_floor_add_one y
  rcases le_or_gt k ⌊y⌋ with hk | hk
  · have hk' : (k : K) ≤ ⌊y⌋ := by exact_mod_cast hk
    rw [abs_of_nonpos (show (k : K) - y ≤ 0 by linarith)]
    unfold nearestEven
    split
    · rw [abs_of_nonpos (by linarith)]; linarith
    · rename_i a
      split
      · push_cast; rw [abs_of_nonneg (by linarith)]; linarith
      · rename_i b
        split
        · rw [abs_of_nonpos (by linarith)]; linarith
        · push_cast; rw [abs_of_nonneg (by linarith)]; linarith
  · have hk' : ((⌊y⌋ + 1 : Int) : K) ≤ k := by exact_mod_cast hk
    push_cast at hk'
    rw [abs_of_nonneg (show 0 ≤ (k : K) - y by linarith)]
    unfold nearestEven
    split
    · rw [abs_of_nonpos (by linarith)]; linarith
    · rename_i a
      split
      · push_cast; rw [abs_of_nonneg (by linarith)]; linarith
      · rename_i b
        split
        · rw [abs_of_nonpos (by linarith)]; linarith
        · push_cast; rw [abs_of_nonneg (by linarith)]; linarith

/-- another integer is as near only if the chosen one is even -/
theorem nearestEven_tie (y : K) (k : Int) (hne : k ≠ nearestEven y) (h : |(k : K) - y| = |(nearestEven y : K) - y|) : Even (nearestEven y) := by
  have h1 := Int.floor_le y
  have h2 := Int.lt_floor_add_one y
  have hb : |(k : K) - y| ≤ 1 / 2 := h ▸ nearestEven_err y
  obtain ⟨hb1, hb2⟩ := abs_le.1 hb
  by_cases a : 2 * (y - ⌊y⌋) < 1
  · have e : nearestEven y = ⌊y⌋ := by unfold nearestEven; rw [if_pos a]
    rw [e] at hne h
    exfalso
    rcases lt_or_gt_of_ne hne with hk | hk
    · have : (k : K) + 1 ≤ ⌊y⌋ := by exact_mod_cast hk
      rw [abs_of_nonpos (show (k : K) - y ≤ 0 by linarith), abs_of_nonpos (show (⌊y⌋ : K) - y ≤ 0 by linarith)] at h
      linarith
    · have : (⌊y⌋ : K) + 1 ≤ k := by exact_mod_cast hk
      linarith
  · by_cases b : 1 < 2 * (y - ⌊y⌋)
    · have e : nearestEven y = ⌊y⌋ + 1 := by unfold nearestEven; rw [if_neg a, if_pos b]
      rw [e] at hne h
      exfalso
      rcases lt_or_gt_of_ne hne with hk | hk
      · have : (k : K) ≤ ⌊y⌋ := by exact_mod_cast Int.lt_add_one_iff.1 hk
        linarith
      · have : (⌊y⌋ : K) + 1 + 1 ≤ k := by exact_mod_cast hk
        linarith
    · unfold nearestEven
      rw [if_neg a, if_neg b]
      split
      · rename_i c; exact Int.even_iff.2 c
      · rename_i c; rw [Int.even_iff]; omega

theorem toBits_nearest_pos (t : Nat) (ht : 1 ≤ t) {x : K} (hx : 0 < x) :
    Spec.HasBits t (toBits t x) ∧ (∀ z, Spec.HasBits t z → |toBits t x - x| ≤ |z - x|) ∧
    ∀ z, Spec.HasBits t z → z ≠ toBits t x → |z - x| = |toBits t x - x| → ∃ m e : Int, Even m ∧ toBits t x = (m : K) * (2 : K) ^ e ∧ (2 : K) ^ (e + t - 1) ≤ |x| ∧ |x| < (2 : K) ^ (e + t) := by
  obtain ⟨b1, b2⟩ := log_bounds hx
  set e := Int.log 2 |x| + 1 - (t : Int) with he
  have hu : lastBit t x = (2 : K) ^ e := rfl
  have hl : (0 : K) < (2 : K) ^ e := zpow_pos two_pos _
  have hax : |x| = x := abs_of_pos hx
  have e1 : (2 : K) ^ Int.log 2 x = ((2 ^ (t - 1) : Int) : K) * (2 : K) ^ e := by
    push_cast
    rw [← zpow_natCast, ← zpow_add₀ two_ne_zero, he, hax]
    congr 1; omega
  have e2 : (2 : K) ^ (Int.log 2 x + 1) = ((2 ^ t : Int) : K) * (2 : K) ^ e := by
    push_cast
    rw [← zpow_natCast, ← zpow_add₀ two_ne_zero, he, hax]
    congr 1; omega
  have hy : toBits t x = (nearestEven (x / (2 : K) ^ e) : K) * (2 : K) ^ e := by
    unfold toBits; rw [if_neg (not_lt.2 hx.le), hu]
  -- a multiple of the last bit is no nearer
  have mult : ∀ k : Int, |toBits t x - x| = |(nearestEven (x / (2 : K) ^ e) : K) - x / (2 : K) ^ e| * (2 : K) ^ e ∧ |(k : K) * (2 : K) ^ e - x| = |(k : K) - x / (2 : K) ^ e| * (2 : K) ^ e := by
    intro k
    have hz : ∀ a : K, |a * (2 : K) ^ e - x| = |a - x / (2 : K) ^ e| * (2 : K) ^ e := by
      intro a
      rw [← abs_of_pos hl, ← abs_mul, abs_of_pos hl, sub_mul, div_mul_cancel₀ _ hl.ne']
    rw [hy]; exact ⟨hz _, hz _⟩
  have near : ∀ k : Int, |toBits t x - x| ≤ |(k : K) * (2 : K) ^ e - x| := by
    intro k
    rw [(mult k).1, (mult k).2]
    exact mul_le_mul_of_nonneg_right (nearestEven_nearest _ k) hl.le
  -- the others are smaller than all numbers in question
  have rest : ∀ z, Spec.HasBits t z → (∃ k : Int, z = (k : K) * (2 : K) ^ e) ∨ |toBits t x - x| < |z - x| := by
    rintro z ⟨m, e', hm, hz⟩
    by_cases hee : e ≤ e'
    · left
      refine ⟨m * 2 ^ (e' - e).toNat, ?_⟩
      rw [hz]; push_cast
      rw [mul_assoc, ← zpow_natCast, ← zpow_add₀ two_ne_zero]
      congr 2; omega
    · right
      have hm' : (m : K) < (2 : K) ^ t := by exact_mod_cast (abs_lt.1 hm).2
      have hz2 : z < (2 : K) ^ Int.log 2 x := by
        rw [hz]
        calc (m : K) * (2 : K) ^ e' < (2 : K) ^ t * (2 : K) ^ e' := mul_lt_mul_of_pos_right hm' (zpow_pos two_pos _)
          _ = (2 : K) ^ ((t : Int) + e') := by rw [← zpow_natCast, ← zpow_add₀ two_ne_zero]
          _ ≤ (2 : K) ^ Int.log 2 x := zpow_le_zpow_right₀ one_le_two (by rw [he, hax] at hee; omega)
      have h3 := near (2 ^ (t - 1))
      rw [← e1, abs_of_nonpos (show (2 : K) ^ Int.log 2 x - x ≤ 0 by linarith)] at h3
      rw [abs_of_nonpos (show z - x ≤ 0 by linarith)]
      linarith
  refine ⟨?_, ?_, ?_⟩
  · set n := nearestEven (x / (2 : K) ^ e) with hn
    have hn2 : n ≤ 2 ^ t := by
      have : x / (2 : K) ^ e ≤ ((2 ^ t : Int) : K) := by rw [div_le_iff₀ hl, ← e2]; exact b2.le
      have := nearestEven_mono this
      rw [nearestEven_int] at this; exact this
    have hn0 : 0 ≤ n := by
      have h1 := (nearestEven_bounds (x / (2 : K) ^ e)).1
      have h2 : 0 ≤ ⌊x / (2 : K) ^ e⌋ := Int.floor_nonneg.2 (div_nonneg hx.le hl.le)
      omega
    rcases hn2.lt_or_eq with h | h
    · exact ⟨n, e, by rw [abs_of_nonneg hn0]; exact h, hy⟩
    · refine ⟨1, e + t, ?_, ?_⟩
      · rw [abs_one]; exact one_lt_pow₀ (by norm_num) (by omega)
      · rw [hy, h]; push_cast
        rw [one_mul, ← zpow_natCast, ← zpow_add₀ two_ne_zero, add_comm]
  · intro z hz
    rcases rest z hz with ⟨k, rfl⟩ | h
    · exact near k
    · exact h.le
  · intro z hz hne heq
    rcases rest z hz with ⟨k, rfl⟩ | h
    · refine ⟨_, e, ?_, hy, ?_, ?_⟩
      · refine nearestEven_tie _ k ?_ ?_
        · intro h; exact hne (by rw [hy, h])
        · rw [(mult k).1, (mult k).2] at heq
          exact mul_right_cancel₀ hl.ne' heq
      · rw [hax]; refine le_trans (le_of_eq ?_) b1
        congr 1; rw [he, hax]; omega
      · rw [hax]; refine lt_of_lt_of_eq b2 ?_
        congr 1; rw [he, hax]; omega
    · exact absurd heq h.ne'

/-- **C77** (the rounding of the model). For every number, `toBits t` yields a number with `t` significant bits, no other such number is nearer, and if another one is as near then the last bit of the result is zero: the result is an even multiple of
the weight of the last of `t` bits of the rounded number. -/
theorem C77_ieee (t : Nat) (ht : 1 ≤ t) (x : K) :
    Spec.HasBits t (toBits t x) ∧ (∀ z, Spec.HasBits t z → |toBits t x - x| ≤ |z - x|) ∧
    ∀ z, Spec.HasBits t z → z ≠ toBits t x → |z - x| = |toBits t x - x| → ∃ m e : Int, Even m ∧ toBits t x = (m : K) * (2 : K) ^ e ∧ (2 : K) ^ (e + t - 1) ≤ |x| ∧ |x| < (2 : K) ^ (e + t) := by
  rcases lt_trichotomy x 0 with hx | rfl | hx
  · obtain ⟨h1, h2, h3⟩ := toBits_nearest_pos t ht (neg_pos.2 hx)
    rw [toBits_neg] at h1 h2 h3
    have hd : ∀ z : K, |-z - -x| = |z - x| := fun z => by rw [← abs_neg]; congr 1; ring
    refine ⟨by simpa using h1.neg, fun z hz => ?_, fun z hz hne heq => ?_⟩
    · have := h2 (-z) hz.neg
      rwa [hd, hd] at this
    · obtain ⟨m, e, a1, a2, a3, a4⟩ := h3 (-z) hz.neg (fun h => hne (neg_injective h)) (by rw [hd, hd]; exact heq)
      rw [abs_neg] at a3 a4
      exact ⟨-m, e, a1.neg, by push_cast; rw [neg_mul, ← a2, neg_neg], a3, a4⟩
  · rw [toBits_zero]
    refine ⟨⟨0, 0, by simp, by simp⟩, fun z _ => by simp, fun z _ hne heq => ?_⟩
    simp only [sub_zero, abs_zero, abs_eq_zero] at heq
    exact absurd heq hne
  · exact toBits_nearest_pos t ht hx

end

/-- a tie: 2^24 + 1 lies between the floats 2^24 and 2^24 + 2 -/
example : toBits 24 (16777217 : ℚ) = 16777216 ∧ toBits 24 (16777219 : ℚ) = 16777220 := by decide +kernel

end Ndt
