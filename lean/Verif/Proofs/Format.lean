import Verif.Props.Rounding
import Verif.Props.Ieee
import Verif.Spec.Format

/-! Lemmas about rounding in a format with bounded exponents (C96). -/

namespace Ndt
section
variable {K : Type} [Field K] [LinearOrder K] [IsStrictOrderedRing K] [FloorRing K] {d : Nat}

namespace Format

theorem last_pos (F : Format) (x : K) : 0 < F.last x := zpow_pos two_pos _

theorem last_neg (F : Format) (x : K) : F.last (-x) = F.last x := by unfold last; rw [abs_neg]

theorem nearest_zero (F : Format) : F.nearest (0 : K) = 0 := by
  unfold nearest
  rw [if_neg (lt_irrefl _), zero_div]
  have := nearestEven_int (K := K) 0
  rw [Int.cast_zero] at this
  rw [this, Int.cast_zero, zero_mul]

theorem nearest_neg (F : Format) (x : K) : F.nearest (-x) = -F.nearest x := by
  rcases lt_trichotomy x 0 with h | h | h
  · unfold nearest
    rw [if_neg (by linarith : ¬ -x < 0), if_pos h, last_neg, neg_neg]
  · subst h; rw [neg_zero, nearest_zero, neg_zero]
  · unfold nearest
    rw [if_pos (by linarith : -x < 0), if_neg (not_lt.2 h.le), last_neg, neg_neg]

theorem emin_le_log (F : Format) {x : K} (h : (2 : K) ^ F.emin ≤ |x|) : F.emin ≤ Int.log 2 |x| := by
  have h0 : 0 < |x| := lt_of_lt_of_le (zpow_pos two_pos _) h
  exact (Int.zpow_le_iff_le_log (b := 2) one_lt_two h0).1 (by push_cast; exact h)

/-- normal numbers are rounded as if exponents were not bounded -/
theorem nearest_normal (F : Format) {x : K} (h : (2 : K) ^ F.emin ≤ |x|) : F.nearest x = toBits F.t x := by
  have e : F.last x = lastBit F.t x := by
    unfold last lastBit
    rw [max_eq_left (F.emin_le_log h)]
  unfold nearest toBits
  rw [e]

theorem last_small (F : Format) {x : K} (h0 : 0 < x) (h : x < (2 : K) ^ F.emin) : F.last x = (2 : K) ^ (F.emin + 1 - (F.t : Int)) := by
  unfold last
  rw [abs_of_pos h0, max_eq_right]
  by_contra hc
  have := (Int.zpow_le_iff_le_log (b := 2) one_lt_two h0).2 (not_le.1 hc).le
  push_cast at this
  exact absurd this (not_le.2 h)

theorem nearest_small (F : Format) {x : K} (h0 : 0 ≤ x) (h : x < (2 : K) ^ F.emin) :
    F.nearest x = (nearestEven (x / (2 : K) ^ (F.emin + 1 - (F.t : Int))) : K) * (2 : K) ^ (F.emin + 1 - (F.t : Int)) := by
  rcases h0.lt_or_eq with h1 | h1
  · unfold nearest; rw [if_neg (not_lt.2 h0), F.last_small h1 h]
  · subst h1
    rw [nearest_zero, zero_div]
    have := nearestEven_int (K := K) 0
    rw [Int.cast_zero] at this
    rw [this, Int.cast_zero, zero_mul]

theorem pow_split (F : Format) (ht : 1 ≤ F.t) : (2 : K) ^ F.emin = ((2 ^ (F.t - 1) : Int) : K) * (2 : K) ^ (F.emin + 1 - (F.t : Int)) := by
  push_cast
  rw [← zpow_natCast, ← zpow_add₀ two_ne_zero]
  congr 1; omega

theorem nearest_small_bounds (F : Format) (ht : 1 ≤ F.t) {x : K} (h0 : 0 ≤ x) (h : x < (2 : K) ^ F.emin) :
    0 ≤ F.nearest x ∧ F.nearest x ≤ (2 : K) ^ F.emin := by
  have hq : (0 : K) < (2 : K) ^ (F.emin + 1 - (F.t : Int)) := zpow_pos two_pos _
  rw [F.nearest_small h0 h]
  constructor
  · refine mul_nonneg ?_ hq.le
    have h1 := (nearestEven_bounds (x / (2 : K) ^ (F.emin + 1 - (F.t : Int)))).1
    have h2 : 0 ≤ ⌊x / (2 : K) ^ (F.emin + 1 - (F.t : Int))⌋ := Int.floor_nonneg.2 (div_nonneg h0 hq.le)
    exact_mod_cast h2.trans h1
  · have h1 : x / (2 : K) ^ (F.emin + 1 - (F.t : Int)) ≤ ((2 ^ (F.t - 1) : Int) : K) := by
      rw [div_le_iff₀ hq, ← F.pow_split ht]; exact h.le
    have h2 := nearestEven_mono h1
    rw [nearestEven_int] at h2
    rw [F.pow_split ht]
    exact mul_le_mul_of_nonneg_right (by exact_mod_cast h2) hq.le

theorem nearestEven_eq_zero {y : K} (h : 0 ≤ y) : nearestEven y = 0 ↔ y ≤ 1 / 2 := by
  have hf : 0 ≤ ⌊y⌋ := Int.floor_nonneg.2 h
  have h1 := Int.floor_le y
  have h2 := Int.lt_floor_add_one y
  constructor
  · intro h0
    have := nearestEven_err y
    rw [h0, Int.cast_zero, zero_sub, abs_neg, abs_of_nonneg h] at this
    exact this
  · intro hy
    have e : ⌊y⌋ = 0 := by rw [Int.floor_eq_iff]; constructor <;> push_cast <;> linarith
    unfold nearestEven
    rw [e, Int.cast_zero, sub_zero]
    split
    · rfl
    · rw [if_neg (by linarith), if_pos (by decide)]

theorem nearest_small_zero (F : Format) {x : K} (h0 : 0 ≤ x) (h : x < (2 : K) ^ F.emin) :
    F.nearest x = 0 ↔ x ≤ (2 : K) ^ (F.emin - (F.t : Int)) := by
  have hq : (0 : K) < (2 : K) ^ (F.emin + 1 - (F.t : Int)) := zpow_pos two_pos _
  have e : (2 : K) ^ (F.emin - (F.t : Int)) = 1 / 2 * (2 : K) ^ (F.emin + 1 - (F.t : Int)) := by
    rw [show F.emin + 1 - (F.t : Int) = (F.emin - (F.t : Int)) + 1 by ring, zpow_add₀ two_ne_zero, zpow_one]; ring
  rw [F.nearest_small h0 h, mul_eq_zero, or_iff_left hq.ne', Int.cast_eq_zero, nearestEven_eq_zero (div_nonneg h0 hq.le), div_le_iff₀ hq, e]

theorem toBits_pos (t : Nat) (ht : 1 ≤ t) {x : K} (h : 0 < x) : 0 < toBits t x := lt_of_lt_of_le (zpow_pos two_pos _) (toBits_pow t ht h).1

/-- the rounded number has the same integral part with and without bounds on exponents, except for the negative numbers that underflow to zero -/
theorem floor_nearest (F : Format) (ht : 1 ≤ F.t) (hm : F.emin ≤ -1) (x : K) :
    ⌊F.nearest x⌋ = if x < 0 ∧ |x| ≤ (2 : K) ^ (F.emin - (F.t : Int)) then 0 else ⌊toBits F.t x⌋ := by
  have hle : (2 : K) ^ (F.emin - (F.t : Int)) < (2 : K) ^ F.emin := zpow_lt_zpow_right₀ one_lt_two (by omega)
  have hh : (2 : K) ^ F.emin < 1 := by
    rw [← zpow_zero (2 : K)]; exact zpow_lt_zpow_right₀ one_lt_two (by omega)
  rcases le_or_gt ((2 : K) ^ F.emin) |x| with h | h
  · rw [if_neg (fun hc => absurd hc.2 (not_le.2 (lt_of_lt_of_le hle h))), F.nearest_normal h]
  · rcases le_or_gt 0 x with h0 | h0
    · rw [abs_of_nonneg h0] at h
      rw [if_neg (fun hc => absurd hc.1 (not_lt.2 h0))]
      obtain ⟨a1, a2⟩ := F.nearest_small_bounds ht h0 h
      have b1 := toBits_nonneg F.t h0
      have b2 := toBits_mono F.t ht _ _ h.le
      rw [toBits_two_pow F.t ht] at b2
      rw [show ⌊F.nearest x⌋ = 0 by rw [Int.floor_eq_iff]; constructor <;> push_cast <;> linarith,
        show ⌊toBits F.t x⌋ = 0 by rw [Int.floor_eq_iff]; constructor <;> push_cast <;> linarith]
    · rw [abs_of_neg h0] at h ⊢
      have hn : F.nearest x = -F.nearest (-x) := by rw [nearest_neg, neg_neg]
      have hb : toBits F.t x = -toBits F.t (-x) := by rw [toBits_neg, neg_neg]
      have hx : 0 < -x := by linarith
      obtain ⟨a1, a2⟩ := F.nearest_small_bounds ht hx.le h
      have b1 := toBits_pos F.t ht hx
      have b2 := toBits_mono F.t ht _ _ h.le
      rw [toBits_two_pow F.t ht] at b2
      have eb : ⌊toBits F.t x⌋ = -1 := by rw [hb, Int.floor_eq_iff]; constructor <;> push_cast <;> linarith
      have hz := F.nearest_small_zero hx.le h
      by_cases hs : -x ≤ (2 : K) ^ (F.emin - (F.t : Int))
      · rw [if_pos ⟨h0, hs⟩, hn, hz.2 hs, neg_zero, Int.floor_zero]
      · rw [if_neg (fun hc => hs hc.2), eb]
        have : 0 < F.nearest (-x) := lt_of_le_of_ne a1 (fun hc => hs (hz.1 hc.symm))
        rw [hn, Int.floor_eq_iff]; constructor <;> push_cast <;> linarith

theorem toInt_large {n : Int} (h : 2147483648 ≤ n ∨ n < -2147483648) : toInt n = none := by
  unfold toInt; rw [if_neg]; omega

/-- conversion to `int` of a rounded number -/
theorem toInt_round (F : Format) (ht : 1 ≤ F.t) (hm : F.emin ≤ -1) (hM : 32 ≤ F.emax) (x : K) :
    flToInt (F.round x) = if x < 0 ∧ |x| ≤ (2 : K) ^ (F.emin - (F.t : Int)) then some 0 else toInt ⌊toBits F.t x⌋ := by
  have hbig : (4294967296 : K) ≤ (2 : K) ^ F.emax := by
    have : (4294967296 : K) = (2 : K) ^ (32 : Int) := by norm_num
    rw [this]; exact zpow_le_zpow_right₀ one_le_two hM
  unfold round
  split
  · show toInt ⌊F.nearest x⌋ = _
    rw [F.floor_nearest ht hm]
    split <;> rfl
  · rename_i hc
    have hc := not_lt.1 hc
    have hh : (2 : K) ^ F.emin < 1 := by
      rw [← zpow_zero (2 : K)]; exact zpow_lt_zpow_right₀ one_lt_two (by omega)
    have hx : (2 : K) ^ F.emin ≤ |x| := by
      by_contra hx
      have hx := not_le.1 hx
      have hb : |F.nearest x| ≤ (2 : K) ^ F.emin := by
        rcases le_or_gt 0 x with h0 | h0
        · rw [abs_of_nonneg h0] at hx
          obtain ⟨a1, a2⟩ := F.nearest_small_bounds ht h0 hx
          rw [abs_of_nonneg a1]; exact a2
        · rw [abs_of_neg h0] at hx
          obtain ⟨a1, a2⟩ := F.nearest_small_bounds ht (by linarith : 0 ≤ -x) hx
          rw [nearest_neg] at a1 a2
          rw [abs_of_nonpos (by linarith)]; exact a2
      linarith
    rw [if_neg (fun hs => absurd hs.2 (not_le.2 (lt_of_lt_of_le (zpow_lt_zpow_right₀ one_lt_two (by omega)) hx)))]
    rw [F.nearest_normal hx] at hc
    show none = _
    refine (toInt_large ?_).symm
    rcases le_abs.1 hc with h | h
    · left; rw [Int.le_floor]; push_cast; linarith
    · right; rw [Int.floor_lt]; push_cast; linarith

/-- between two powers of two of normal numbers nothing but the number of bits matters -/
theorem round_between (F : Format) (ht : 1 ≤ F.t) {a b : Int} (ha : F.emin ≤ a) (hb : b < F.emax) {x : K} (h1 : (2 : K) ^ a ≤ x) (h2 : x ≤ (2 : K) ^ b) :
    F.round x = .fin (toBits F.t x) ∧ (2 : K) ^ a ≤ toBits F.t x ∧ toBits F.t x ≤ (2 : K) ^ b := by
  have hp : (0 : K) < (2 : K) ^ a := zpow_pos two_pos _
  have m1 := toBits_mono F.t ht _ _ h1
  have m2 := toBits_mono F.t ht _ _ h2
  rw [toBits_two_pow F.t ht] at m1 m2
  refine ⟨?_, m1, m2⟩
  have hx : 0 < x := by linarith
  unfold round
  rw [F.nearest_normal (by rw [abs_of_pos hx]; exact (zpow_le_zpow_right₀ one_le_two ha).trans h1), if_pos]
  rw [abs_of_pos (by linarith)]
  exact m2.trans_lt (zpow_lt_zpow_right₀ one_lt_two hb)

end Format

/-- the formats of the two scalar types -/
theorem scalar_facts {T : Format} (hT : T = .single ∨ T = .double) :
    1 ≤ T.t ∧ T.t ≤ 53 ∧ T.emin ≤ -1 ∧ 32 ≤ T.emax ∧ -T.emin < T.emax ∧ -1022 ≤ T.emin ∧ T.emax ≤ 1024 := by
  rcases hT with rfl | rfl <;> decide

theorem members_between {T : Format} (hT : T = .single ∨ T = .double) (ht : 1 ≤ T.t) (r : K) {a b : Int} (ha : T.emin + 1 ≤ a) (hb : b ≤ -T.emin) (h1 : (2 : K) ^ a ≤ r) (h2 : r ≤ (2 : K) ^ b) :
    (bundleResolutionF T r = .fin (bundleResolutionR (ieeeArith K T.t ht) r) ∧ (2 : K) ^ (a - 1) ≤ bundleResolutionR (ieeeArith K T.t ht) r ∧ bundleResolutionR (ieeeArith K T.t ht) r ≤ (2 : K) ^ (b - 1)) ∧
    bundleResolutionInvF T r = .fin (bundleResolutionInvR (ieeeArith K T.t ht) r) ∧ (2 : K) ^ (1 - b) ≤ bundleResolutionInvR (ieeeArith K T.t ht) r ∧
      bundleResolutionInvR (ieeeArith K T.t ht) r ≤ (2 : K) ^ (1 - a) := by
  obtain ⟨_, _, f2, f3, f4, f5, f6⟩ := scalar_facts hT
  have hab : a ≤ b := by
    by_contra hc
    exact absurd (h1.trans h2) (not_le.2 (zpow_lt_zpow_right₀ one_lt_two (not_le.1 hc)))
  have D : Format.double.t = 53 ∧ Format.double.emin = -1022 ∧ Format.double.emax = 1024 := ⟨rfl, rfl, rfl⟩
  have e : ∀ n : Int, (2 : K) ^ (n - 1) = 1 / 2 * (2 : K) ^ n := by
    intro n; rw [zpow_sub₀ two_ne_zero, zpow_one]; ring
  obtain ⟨r1, r2, r3⟩ := Format.double.round_between (by decide) (a := a - 1) (b := b - 1) (by rw [D.2.1]; omega) (by rw [D.2.2]; omega) (x := 1 / 2 * r)
    (by rw [e]; linarith) (by rw [e]; linarith)
  obtain ⟨s1, s2, s3⟩ := T.round_between ht (a := a - 1) (b := b - 1) (by omega) (by omega) r2 r3
  have hres : bundleResolutionF T r = .fin (bundleResolutionR (ieeeArith K T.t ht) r) := by
    show T.conv (Format.double.round (1 / 2 * r)) = _
    rw [r1]; exact s1
  refine ⟨⟨hres, s2, s3⟩, ?_⟩
  have hp : (0 : K) < (2 : K) ^ (a - 1) := zpow_pos two_pos _
  change (2 : K) ^ (a - 1) ≤ bundleResolutionR (ieeeArith K T.t ht) r at s2
  change bundleResolutionR (ieeeArith K T.t ht) r ≤ (2 : K) ^ (b - 1) at s3
  have hpos : 0 < bundleResolutionR (ieeeArith K T.t ht) r := by linarith
  have i1 : (2 : K) ^ (1 - b) ≤ 1 / bundleResolutionR (ieeeArith K T.t ht) r := by
    rw [show 1 - b = -(b - 1) by ring, zpow_neg, ← one_div]
    exact one_div_le_one_div_of_le hpos s3
  have i2 : 1 / bundleResolutionR (ieeeArith K T.t ht) r ≤ (2 : K) ^ (1 - a) := by
    rw [show 1 - a = -(a - 1) by ring, zpow_neg, ← one_div]
    exact one_div_le_one_div_of_le hp s2
  obtain ⟨u1, u2, u3⟩ := Format.double.round_between (by decide) (a := 1 - b) (b := 1 - a) (by rw [D.2.1]; omega) (by rw [D.2.2]; omega) i1 i2
  obtain ⟨v1, v2, v3⟩ := T.round_between ht (a := 1 - b) (b := 1 - a) (by omega) (by omega) u2 u3
  refine ⟨?_, v2, v3⟩
  show T.conv (Format.double.recip (bundleResolutionF T r)) = _
  rw [hres]
  show T.conv (if _ = 0 then _ else _) = _
  rw [if_neg hpos.ne', u1]
  exact v1

end
end Ndt
