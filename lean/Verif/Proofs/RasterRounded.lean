import Verif.Model.RasterRounded
import Verif.Proofs.Rounding
import Verif.Props.Raster

/-! Lemmas on rasterisation with rounded arithmetic. -/

namespace Ndt
open St

section
variable {K : Type} [Field K] [LinearOrder K] [IsStrictOrderedRing K] [FloorRing K] {B : Backend 2} {D V : Type}

theorem mem_rasterCellsR (R : Arith K) (r s : K) (n : Nat) (lo bi : Idx 2) (val : Pt K 2 → (Fin 2 → K) → V) (e : Int × Int × V) :
    e ∈ rasterCellsR R r s n lo bi val ↔ ∃ k l, k < n ∧ l < n ∧
      e = ((bi 0 - lo 0) * (n : Int) + (k : Int), (bi 1 - lo 1) * (n : Int) + (l : Int),
        val ![samplePosR R r s (bi 0) k, samplePosR R r s (bi 1) l] ![chunkWeightR R (bi 0) k n, chunkWeightR R (bi 1) l n]) := by
  unfold rasterCellsR
  simp only [List.mem_flatMap, List.mem_map, List.mem_range]
  constructor
  · rintro ⟨k, hk, l, hl, rfl⟩; exact ⟨k, l, hk, hl, rfl⟩
  · rintro ⟨k, l, hk, hl, rfl⟩; exact ⟨k, hk, l, hl, rfl⟩

theorem mem_rasterWritesR (R : Arith K) (r s : K) (n : Nat) (val : Bundle → Pt K 2 → (Fin 2 → K) → V) (st : St B D) (e : Int × Int × V) :
    e ∈ rasterWritesR R r s n val st ↔ ∃ x ∈ B.traverse st.bundles, ∃ k l, k < n ∧ l < n ∧
      e = ((x.1 0 - st.minB 0) * (n : Int) + (k : Int), (x.1 1 - st.minB 1) * (n : Int) + (l : Int),
        val x.2 ![samplePosR R r s (x.1 0) k, samplePosR R r s (x.1 1) l] ![chunkWeightR R (x.1 0) k n, chunkWeightR R (x.1 1) l n]) := by
  unfold rasterWritesR
  rw [List.mem_flatMap]
  refine exists_congr fun x => and_congr Iff.rfl ?_
  rw [mem_rasterCellsR]

theorem rasterCellsR_nodup (R : Arith K) (r s : K) (n : Nat) (lo bi : Idx 2) (val : Pt K 2 → (Fin 2 → K) → V) :
    ((rasterCellsR R r s n lo bi val).map fun e => (e.1, e.2.1)).Nodup := by
  unfold rasterCellsR
  simp only [List.map_flatMap, List.map_map]
  rw [List.nodup_flatMap]
  constructor
  · intro k _
    refine List.Nodup.map_on ?_ List.nodup_range
    intro l hl l' hl' h
    simp only [Function.comp_apply, Prod.mk.injEq] at h
    omega
  · refine List.Pairwise.imp_of_mem ?_ List.nodup_range
    intro k k' hk hk' hne
    rw [Function.onFun, List.disjoint_left]
    intro e he he'
    obtain ⟨l, _, rfl⟩ := List.mem_map.1 he
    obtain ⟨l', _, h⟩ := List.mem_map.1 he'
    simp only [Function.comp_apply, Prod.mk.injEq] at h
    omega

theorem rasterWritesR_nodup (L : B.Lawful) (R : Arith K) (r s : K) (n : Nat) (val : Bundle → Pt K 2 → (Fin 2 → K) → V) (st : St B D) (hI : L.Inv st.bundles) :
    ((rasterWritesR R r s n val st).map fun e => (e.1, e.2.1)).Nodup := by
  unfold rasterWritesR
  rw [List.map_flatMap, List.nodup_flatMap]
  refine ⟨fun e _ => rasterCellsR_nodup .., ?_⟩
  have hp : (B.traverse st.bundles).Pairwise fun a b => a.1 ≠ b.1 := List.pairwise_map.1 (L.nodup_traverse _ hI)
  refine hp.imp ?_
  intro a b hne
  rw [Function.onFun, List.disjoint_left]
  intro e he he'
  obtain ⟨x, hx, rfl⟩ := List.mem_map.1 he
  obtain ⟨y, hy, hxy⟩ := List.mem_map.1 he'
  obtain ⟨k, l, hk, hl, rfl⟩ := (mem_rasterCellsR ..).1 hx
  obtain ⟨k', l', hk', hl', rfl⟩ := (mem_rasterCellsR ..).1 hy
  simp only [Prod.mk.injEq] at hxy
  have h0 := (chunk_unique hk' hk hxy.1).1
  have h1 := (chunk_unique hl' hl hxy.2).1
  refine hne (funext fun a => ?_)
  fin_cases a <;> simp <;> omega

omit [FloorRing K] in
/-- the two sides of the error of one rounding of a non-negative number -/
theorem Rounding.sides (R : Rounding K) {x : K} (h : 0 ≤ x) : x * (1 - R.u) ≤ R.rnd x ∧ R.rnd x ≤ x * (1 + R.u) := by
  have := abs_le.1 (R.err x)
  rw [abs_of_nonneg h] at this
  constructor <;> linarith

theorem chunkStepR_eq_some (R : Arith K) (r s : K) (hr : 0 ≤ r) (hs : 0 < s) (n : Nat) :
    chunkStepR R r s = some n ↔ ⌊R.T.rnd (bundleResolutionR R r / s)⌋ = (n : Int) ∧ (n : Int) < 2147483648 := by
  have h0 : 0 ≤ ⌊R.T.rnd (bundleResolutionR R r / s)⌋ := by
    refine Int.floor_nonneg.2 (R.T.rnd_nonneg (div_nonneg ?_ hs.le))
    unfold bundleResolutionR
    exact R.T.rnd_nonneg (R.D.rnd_nonneg (by linarith))
  unfold chunkStepR
  rw [Option.map_eq_some_iff]
  constructor
  · rintro ⟨m, h, rfl⟩
    obtain ⟨h1, h2, h3⟩ := toInt_eq_some.1 h
    subst h1
    rw [Int.toNat_of_nonneg h0]
    exact ⟨rfl, h3⟩
  · rintro ⟨h1, h2⟩
    exact ⟨n, toInt_eq_some.2 ⟨h1, by omega, by omega⟩, Int.toNat_natCast n⟩

/-- the target is large enough as long as it has less than `1 / (5 u)` cells in a row -/
theorem extentR_le (R : Arith K) {r s : K} (hr : 0 < r) (hs : 0 < s) (hh : bundleResolutionR R r = r / 2) {x : Int} (hx : 0 ≤ x)
    (hlim : 5 * R.T.u * ((x : K) * (r / 2 / s)) < 1) {n : Nat} (hn : ⌊R.T.rnd (r / 2 / s)⌋ = (n : Int)) : x * (n : Int) ≤ extentR R r s x := by
  have hu := R.T.nonneg
  rcases hx.lt_or_eq with hx0 | hx0
  swap
  · rw [← hx0, zero_mul]; omega
  have hxK : (0 : K) < x := by exact_mod_cast hx0
  have hq : 0 < r / 2 / s := by positivity
  have hnK : (n : K) ≤ R.T.rnd (r / 2 / s) := by
    have := Int.floor_le (R.T.rnd (r / 2 / s))
    rw [hn] at this; exact_mod_cast this
  by_cases hn0 : n = 0
  · subst hn0; simp
  have h1n : (1 : K) ≤ n := by exact_mod_cast Nat.one_le_iff_ne_zero.2 hn0
  -- the relative error is below one
  have hu1 : R.T.u < 1 := by
    by_contra hge
    push Not at hge
    have h1 := (R.T.sides hq.le).2
    have h2 : (1 : K) ≤ (r / 2 / s) * (1 + R.T.u) := by linarith
    have h3 : (1 : K) ≤ 2 * R.T.u * (r / 2 / s) := by nlinarith
    have h4 : (1 : K) ≤ x := by exact_mod_cast hx0
    nlinarith [mul_nonneg hu hq.le]
  obtain ⟨a1, _⟩ := R.T.sides hxK.le
  have b0 : 0 ≤ R.T.rnd (x : K) * (r / 2) := mul_nonneg (R.T.rnd_nonneg hxK.le) (by positivity)
  obtain ⟨a2, _⟩ := R.T.sides b0
  have b1 : 0 ≤ R.T.rnd (R.T.rnd (x : K) * (r / 2)) / s := div_nonneg (R.T.rnd_nonneg b0) hs.le
  obtain ⟨a3, _⟩ := R.T.sides b1
  have hu1' : 0 ≤ 1 - R.T.u := by linarith
  -- lower bound of the computed quotient
  have c1 : (x : K) * (1 - R.T.u) * (r / 2) * (1 - R.T.u) ≤ R.T.rnd (R.T.rnd (x : K) * (r / 2)) :=
    le_trans (mul_le_mul_of_nonneg_right (mul_le_mul_of_nonneg_right a1 (by positivity)) hu1') a2
  have c2 : (x : K) * (1 - R.T.u) * (r / 2) * (1 - R.T.u) / s * (1 - R.T.u) ≤ R.T.rnd (R.T.rnd (R.T.rnd (x : K) * (r / 2)) / s) :=
    le_trans (mul_le_mul_of_nonneg_right (div_le_div_of_nonneg_right c1 hs.le) hu1') a3
  have e : (x : K) * (1 - R.T.u) * (r / 2) * (1 - R.T.u) / s * (1 - R.T.u) = ((x : K) * (r / 2 / s)) * (1 - R.T.u) ^ 3 := by ring
  rw [e] at c2
  have hd : (1 - R.T.u) ^ 3 ≥ 1 - 3 * R.T.u := by nlinarith [mul_nonneg hu hu1', mul_nonneg (mul_nonneg hu hu) hu1', sq_nonneg R.T.u]
  have hp : 0 ≤ (x : K) * (r / 2 / s) := by positivity
  have c3 : (x : K) * (r / 2 / s) * (1 - 3 * R.T.u) ≤ R.T.rnd (R.T.rnd (R.T.rnd (x : K) * (r / 2)) / s) := (mul_le_mul_of_nonneg_left hd hp).trans c2
  -- upper bound of the number of cells
  have d1 : (x : K) * (n : K) ≤ (x : K) * (r / 2 / s) * (1 + R.T.u) := by
    rw [mul_assoc]
    exact mul_le_mul_of_nonneg_left (hnK.trans (R.T.sides hq.le).2) hxK.le
  have d2 : ((x * (n : Int) : Int) : K) < R.T.rnd (R.T.rnd (R.T.rnd (x : K) * (r / 2)) / s) + 1 := by
    push_cast
    nlinarith [mul_nonneg hu hp]
  have d3 : x * (n : Int) < ⌈R.T.rnd (R.T.rnd (R.T.rnd (x : K) * (r / 2)) / s)⌉ + 1 := by
    have := d2.trans_le (add_le_add_left (Int.le_ceil (R.T.rnd (R.T.rnd (R.T.rnd (x : K) * (r / 2)) / s))) 1)
    exact_mod_cast this
  unfold extentR
  rw [hh]
  omega

theorem rasterExtentR_eq (R : Arith K) (r s : K) (st : St B D) (a : Fin 2) (h : st.minB a ≤ st.maxB a) (h' : st.maxB a - st.minB a < 2147483647) :
    rasterExtentR R r s st a = some (extentR R r s (st.maxB a - st.minB a + 1)) := by
  unfold rasterExtentR intSub
  rw [if_pos (by omega)]
  simp only
  rw [if_pos (by omega)]

/-- error of a sampled coordinate -/
theorem samplePosR_err (R : Arith K) {r s : K} (hr : 0 < r) (hs : 0 < s) (hh : bundleResolutionR R r = r / 2) (b : Int) (k : Nat) :
    |samplePosR R r s b k - ((b : K) * (r / 2) + (k : K) * s)| ≤ ((1 + R.T.u) ^ 3 - 1) * (|(b : K)| * (r / 2) + (k : K) * s) := by
  have hu := R.T.nonneg
  have one : ∀ y z : K, 0 ≤ z → |R.T.rnd (R.T.rnd y * z) - y * z| ≤ ((1 + R.T.u) ^ 2 - 1) * (|y| * z) := by
    intro y z hz
    have h1 : |R.T.rnd y * z - y * z| ≤ R.T.u * |y * z| := by
      rw [← sub_mul, abs_mul, abs_mul, ← mul_assoc]
      exact mul_le_mul_of_nonneg_right (R.T.err y) (abs_nonneg _)
    have h2 := R.T.compose h1
    rw [abs_mul y z, abs_of_nonneg hz] at h2
    have e : (1 + R.T.u) * (1 + R.T.u) - 1 = (1 + R.T.u) ^ 2 - 1 := by ring
    rw [e] at h2
    exact h2
  have h1 := one (b : K) (r / 2) (by positivity)
  have h2 := one (k : K) s hs.le
  have hk : |(k : K)| = k := abs_of_nonneg (by positivity)
  rw [hk] at h2
  unfold samplePosR
  rw [hh]
  generalize R.T.rnd (R.T.rnd (b : K) * (r / 2)) = p at *
  generalize R.T.rnd (R.T.rnd (k : K) * s) = q at *
  have h3 := R.T.err (p + q)
  have hA : (b : K) * (r / 2) ≤ |(b : K)| * (r / 2) ∧ -(|(b : K)| * (r / 2)) ≤ (b : K) * (r / 2) := by
    have hr2 : 0 ≤ r / 2 := by positivity
    exact ⟨mul_le_mul_of_nonneg_right (le_abs_self _) hr2, by rw [← neg_mul]; exact mul_le_mul_of_nonneg_right (neg_abs_le _) hr2⟩
  have hks : 0 ≤ (k : K) * s := by positivity
  have hbr : 0 ≤ |(b : K)| * (r / 2) := by positivity
  generalize (b : K) * (r / 2) = x at *
  generalize (k : K) * s = y at *
  generalize |(b : K)| * (r / 2) = X at *
  have h4 : |p + q| ≤ (1 + R.T.u) ^ 2 * (X + y) := by
    obtain ⟨a1, a2⟩ := abs_le.1 h1
    obtain ⟨b1, b2⟩ := abs_le.1 h2
    rw [abs_le]
    constructor <;> nlinarith
  have h5 : |p + q - (x + y)| ≤ ((1 + R.T.u) ^ 2 - 1) * (X + y) := by
    obtain ⟨a1, a2⟩ := abs_le.1 h1
    obtain ⟨b1, b2⟩ := abs_le.1 h2
    rw [abs_le]
    constructor <;> linarith
  have h6 : R.T.u * |p + q| ≤ R.T.u * ((1 + R.T.u) ^ 2 * (X + y)) := mul_le_mul_of_nonneg_left h4 hu
  have h7 : |R.T.rnd (p + q) - (x + y)| ≤ |R.T.rnd (p + q) - (p + q)| + |p + q - (x + y)| := by
    have := abs_add_le (R.T.rnd (p + q) - (p + q)) (p + q - (x + y))
    rwa [sub_add_sub_cancel] at this
  have e : ((1 + R.T.u) ^ 3 - 1) * (X + y) = R.T.u * ((1 + R.T.u) ^ 2 * (X + y)) + ((1 + R.T.u) ^ 2 - 1) * (X + y) := by ring
  linarith

/-- integers of at most `t` bits are not rounded -/
theorem toBits_small (t : Nat) (m : Nat) (hm : m < 2 ^ t) : toBits t (m : K) = m := by
  rcases Nat.eq_zero_or_pos m with rfl | h0
  · rw [Nat.cast_zero]; exact toBits_zero t
  have hp : (0 : K) < m := by exact_mod_cast h0
  have hlog : Int.log 2 (m : K) + 1 ≤ t := by
    have h1 := (log_bounds hp).1
    have h2 : (2 : K) ^ Int.log 2 (m : K) < (2 : K) ^ (t : Int) := by
      refine h1.trans_lt ?_
      rw [zpow_natCast]
      exact_mod_cast hm
    have := (zpow_lt_zpow_iff_right₀ (one_lt_two (α := K))).1 h2
    omega
  obtain ⟨j, hj⟩ : ∃ j : Nat, (t : Int) - (Int.log 2 (m : K) + 1) = j := ⟨_, (Int.toNat_of_nonneg (by omega)).symm⟩
  have e : (m : K) / lastBit t (m : K) = ((m * 2 ^ j : Int) : K) := by
    unfold lastBit
    rw [abs_of_pos hp, show Int.log 2 (m : K) + 1 - (t : Int) = -(j : Int) by omega, zpow_neg, zpow_natCast, div_inv_eq_mul]
    push_cast; rfl
  unfold toBits
  rw [if_neg (not_lt.2 hp.le), e, nearestEven_int, ← e]
  exact div_mul_cancel₀ _ (lastBit_pos t _).ne'

/-- error of an interpolation weight -/
theorem chunkWeightR_err (R : Arith K) (b : Int) {k n : Nat} (hk : k < n) (hex : ∀ m ≤ n, R.T.rnd (m : K) = m) :
    |chunkWeightR R b k n - (if b % 2 = 0 then 1 - (k : K) / n else (k : K) / n)| ≤ 2 * R.T.u := by
  have hu := R.T.nonneg
  have hn : (0 : K) < n := by exact_mod_cast (by omega : 0 < n)
  have hq0 : 0 ≤ (k : K) / n := by positivity
  have hq1 : (k : K) / n ≤ 1 := by rw [div_le_one hn]; exact_mod_cast hk.le
  have h1 : R.T.rnd (1 : K) = 1 := by simpa using hex 1 (by omega)
  have a0 := R.T.rnd_nonneg hq0
  have a1 : R.T.rnd ((k : K) / n) ≤ 1 := by rw [← h1]; exact R.T.mono _ _ hq1
  have a2 : |R.T.rnd ((k : K) / n) - (k : K) / n| ≤ R.T.u := by
    refine (R.T.err _).trans ?_
    rw [abs_of_nonneg hq0]
    nlinarith
  unfold chunkWeightR
  rw [hex k hk.le, hex n le_rfl]
  by_cases h : b % 2 = 0
  · rw [if_neg (by simpa using h), if_pos h]
    have a3 := R.T.err (1 - R.T.rnd ((k : K) / n))
    rw [abs_of_nonneg (by linarith : 0 ≤ 1 - R.T.rnd ((k : K) / n))] at a3
    have a4 : R.T.u * (1 - R.T.rnd ((k : K) / n)) ≤ R.T.u := by nlinarith
    obtain ⟨b1, b2⟩ := abs_le.1 a2
    obtain ⟨c1, c2⟩ := abs_le.1 (a3.trans a4)
    rw [abs_le]
    constructor <;> linarith
  · rw [if_pos (by simpa using h), if_neg h]
    linarith

end
end Ndt
