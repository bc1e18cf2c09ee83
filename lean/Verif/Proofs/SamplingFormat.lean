import Verif.Model.SamplingFormat
import Verif.Props.Format
import Verif.Props.SamplingRounded

/-! Lemmas for C114: rounding in a format with bounded exponents, on the range that sampling uses. -/

namespace Ndt
open Spec

section
variable {K : Type} [Field K] [LinearOrder K] [IsStrictOrderedRing K] [FloorRing K]

namespace Format

theorem nearest_nonneg (F : Format) (ht : 1 ≤ F.t) {x : K} (h : 0 ≤ x) : 0 ≤ F.nearest x := by
  rcases lt_or_ge x ((2 : K) ^ F.emin) with h1 | h1
  · exact (F.nearest_small_bounds ht h h1).1
  · rw [F.nearest_normal (by rwa [abs_of_nonneg h])]; exact toBits_nonneg _ h

theorem nearest_mono (F : Format) (ht : 1 ≤ F.t) {x y : K} (h0 : 0 ≤ x) (h : x ≤ y) : F.nearest x ≤ F.nearest y := by
  have hq : (0 : K) < (2 : K) ^ (F.emin + 1 - (F.t : Int)) := zpow_pos two_pos _
  rcases lt_or_ge y ((2 : K) ^ F.emin) with h1 | h1
  · rw [F.nearest_small h0 (h.trans_lt h1), F.nearest_small (h0.trans h) h1]
    refine mul_le_mul_of_nonneg_right ?_ hq.le
    exact_mod_cast nearestEven_mono (div_le_div_of_nonneg_right h hq.le)
  · have hy := F.nearest_normal (x := y) (by rwa [abs_of_nonneg (h0.trans h)])
    rcases lt_or_ge x ((2 : K) ^ F.emin) with h2 | h2
    · refine (F.nearest_small_bounds ht h0 h2).2.trans ?_
      rw [hy, ← toBits_two_pow F.t ht F.emin]
      exact toBits_mono _ ht _ _ h1
    · rw [hy, F.nearest_normal (by rwa [abs_of_nonneg h0])]
      exact toBits_mono _ ht _ _ h

/-- multiples of the smallest number below the normal numbers are exact -/
theorem nearest_multiple (F : Format) {z : K} (h0 : 0 ≤ z) (h : z < (2 : K) ^ F.emin) {k : Int} (hk : z = (k : K) * (2 : K) ^ (F.emin + 1 - (F.t : Int))) : F.nearest z = z := by
  rw [F.nearest_small h0 h]
  rw [hk, mul_div_assoc, div_self (zpow_pos two_pos _).ne', mul_one, nearestEven_int]

theorem nearest_fix (F : Format) (ht : 1 ≤ F.t) {z : K} (h0 : 0 ≤ z) (h : InFormat F z) : F.nearest z = z := by
  rcases lt_or_ge z ((2 : K) ^ F.emin) with h1 | h1
  · obtain ⟨k, hk⟩ := h.multiple
    exact F.nearest_multiple h0 h1 hk
  · rw [F.nearest_normal (by rwa [abs_of_nonneg h0]), h.toBits ht]

/-- a sum of numbers of the format does not underflow -/
theorem nearest_sum (F : Format) (ht : 1 ≤ F.t) {k : Int} {z : K} (h0 : 0 ≤ z) (hk : z = (k : K) * (2 : K) ^ (F.emin + 1 - (F.t : Int))) : F.nearest z = toBits F.t z := by
  rcases lt_or_ge z ((2 : K) ^ F.emin) with h1 | h1
  · rw [F.nearest_multiple h0 h1 hk, toBits_of_hasBits F.t ht]
    refine ⟨k, _, ?_, hk⟩
    have hq : (0 : K) < (2 : K) ^ (F.emin + 1 - (F.t : Int)) := zpow_pos two_pos _
    have e := F.pow_split (K := K) ht
    rw [e, hk] at h1
    have h2 : k < 2 ^ (F.t - 1) := by exact_mod_cast lt_of_mul_lt_mul_right h1 hq.le
    have h3 : (0 : K) ≤ k := by
      rw [hk] at h0
      exact nonneg_of_mul_nonneg_left h0 hq
    have h4 : 0 ≤ k := by exact_mod_cast h3
    rw [abs_of_nonneg h4]
    exact h2.trans (pow_lt_pow_right₀ (by norm_num) (by omega))
  · rw [F.nearest_normal (by rwa [abs_of_nonneg h0])]

theorem nearest_err (F : Format) {x : K} (h0 : 0 ≤ x) : |F.nearest x - x| ≤ x * ((2 : K) ^ F.t)⁻¹ + (2 : K) ^ (F.emin - (F.t : Int)) := by
  have hη : (0 : K) < (2 : K) ^ (F.emin - (F.t : Int)) := zpow_pos two_pos _
  have hu : (0 : K) < ((2 : K) ^ F.t)⁻¹ := by positivity
  rcases lt_or_ge x ((2 : K) ^ F.emin) with h1 | h1
  · have hq : (0 : K) < (2 : K) ^ (F.emin + 1 - (F.t : Int)) := zpow_pos two_pos _
    have e : (2 : K) ^ (F.emin - (F.t : Int)) = 1 / 2 * (2 : K) ^ (F.emin + 1 - (F.t : Int)) := by
      rw [show F.emin + 1 - (F.t : Int) = (F.emin - (F.t : Int)) + 1 by ring, zpow_add₀ two_ne_zero, zpow_one]; ring
    rw [F.nearest_small h0 h1]
    have := nearestEven_err (x / (2 : K) ^ (F.emin + 1 - (F.t : Int)))
    have e2 : (nearestEven (x / (2 : K) ^ (F.emin + 1 - (F.t : Int))) : K) * (2 : K) ^ (F.emin + 1 - (F.t : Int)) - x =
        ((nearestEven (x / (2 : K) ^ (F.emin + 1 - (F.t : Int))) : K) - x / (2 : K) ^ (F.emin + 1 - (F.t : Int))) * (2 : K) ^ (F.emin + 1 - (F.t : Int)) := by
      rw [sub_mul, div_mul_cancel₀ _ hq.ne']
    rw [e2, abs_mul, abs_of_pos hq, e]
    have := mul_le_mul_of_nonneg_right this hq.le
    nlinarith [mul_nonneg h0 hu.le]
  · rw [F.nearest_normal (by rwa [abs_of_nonneg h0])]
    have := toBits_err F.t x
    rw [abs_of_nonneg h0] at this
    linarith

/-- scaling a number of the format down by a power of two is exact unless the result is subnormal -/
theorem nearest_scaled (F : Format) (ht : 1 ≤ F.t) {f : K} (hf : InFormat F f) (h0 : 0 ≤ f) (n : Nat) :
    |F.nearest (1 / 2 ^ n * f) - 1 / 2 ^ n * f| ≤ (2 : K) ^ (F.emin - (F.t : Int)) := by
  have hy : 0 ≤ 1 / 2 ^ n * f := by positivity
  rcases lt_or_ge (1 / 2 ^ n * f) ((2 : K) ^ F.emin) with h1 | h1
  · have hq : (0 : K) < (2 : K) ^ (F.emin + 1 - (F.t : Int)) := zpow_pos two_pos _
    have e : (2 : K) ^ (F.emin - (F.t : Int)) = 1 / 2 * (2 : K) ^ (F.emin + 1 - (F.t : Int)) := by
      rw [show F.emin + 1 - (F.t : Int) = (F.emin - (F.t : Int)) + 1 by ring, zpow_add₀ two_ne_zero, zpow_one]; ring
    rw [F.nearest_small hy h1]
    generalize 1 / 2 ^ n * f = x at *
    have := nearestEven_err (x / (2 : K) ^ (F.emin + 1 - (F.t : Int)))
    have e2 : (nearestEven (x / (2 : K) ^ (F.emin + 1 - (F.t : Int))) : K) * (2 : K) ^ (F.emin + 1 - (F.t : Int)) - x =
        ((nearestEven (x / (2 : K) ^ (F.emin + 1 - (F.t : Int))) : K) - x / (2 : K) ^ (F.emin + 1 - (F.t : Int))) * (2 : K) ^ (F.emin + 1 - (F.t : Int)) := by
      rw [sub_mul, div_mul_cancel₀ _ hq.ne']
    rw [e2, abs_mul, abs_of_pos hq, e]
    exact mul_le_mul_of_nonneg_right this hq.le
  · rw [F.nearest_normal (by rwa [abs_of_nonneg hy])]
    have e : 1 / 2 ^ n * f = f * (2 : K) ^ (-(n : Int)) := by rw [zpow_neg, zpow_natCast]; ring
    rw [e, toBits_scale, hf.toBits ht, sub_self, abs_zero]
    exact (zpow_pos two_pos _).le

end Format

variable {T : Format}

theorem scalar_wide (hT : T = .single ∨ T = .double) : (T.t : Int) + 2 ≤ T.emax ∧ T.emin + (T.t : Int) ≤ 0 ∧ 24 ≤ T.t := by rcases hT with rfl | rfl <;> decide

theorem pow_inFormat (hT : T = .single ∨ T = .double) {n : Int} (h1 : T.emin ≤ n) (h2 : n < T.emax) : InFormat T ((2 : K) ^ n) := by
  obtain ⟨a1, _⟩ := scalar_facts hT
  refine ⟨⟨1, n, ?_, by omega, by push_cast; ring⟩, ?_⟩
  · have : (1 : Int) < 2 ^ T.t := one_lt_pow₀ (by norm_num) (by omega)
    simpa using this
  · rw [abs_of_pos (zpow_pos two_pos _)]
    exact zpow_lt_zpow_right₀ one_lt_two h2

/-- rounding of a number that is not too large -/
theorem round_fin (hT : T = .single ∨ T = .double) {x : K} (h0 : 0 ≤ x) (h : x ≤ 2 ^ (T.t + 1)) : T.round x = .fin (T.nearest x) ∧ InFormat T (T.nearest x) := by
  obtain ⟨a1, a2, a3, a4, a5, a6, a7⟩ := scalar_facts hT
  obtain ⟨b1, b2, b3⟩ := scalar_wide hT
  have e : (2 : K) ^ (T.t + 1) = (2 : K) ^ ((T.t + 1 : Nat) : Int) := (zpow_natCast _ _).symm
  have hp := T.nearest_fix a1 (zpow_pos (two_pos (α := K)) _).le (pow_inFormat (K := K) hT (n := ((T.t + 1 : Nat) : Int)) (by push_cast; omega) (by push_cast; omega))
  have hm := T.nearest_mono a1 h0 h
  rw [e, hp] at hm
  have hlt : T.nearest x < (2 : K) ^ T.emax := hm.trans_lt (zpow_lt_zpow_right₀ one_lt_two (by push_cast; omega))
  have h1 : |T.nearest x| < (2 : K) ^ T.emax := by rwa [abs_of_nonneg (T.nearest_nonneg a1 h0)]
  refine ⟨by unfold Format.round; rw [if_pos h1], ?_, h1⟩
  exact T.nearest_form a1 x

theorem conv_fin (hT : T = .single ∨ T = .double) {x : K} (h0 : 0 ≤ x) (h : x ≤ 2 ^ (T.t + 1)) : T.conv (.fin x) = .fin (T.nearest x) := (round_fin hT h0 h).1

theorem nearest_one (hT : T = .single ∨ T = .double) : T.nearest (1 : K) = 1 := by
  obtain ⟨a1, a2, a3, a4, _⟩ := scalar_facts hT
  simpa using T.nearest_fix a1 (zpow_pos (two_pos (α := K)) 0).le (pow_inFormat (K := K) hT (n := 0) (by omega) (by omega))

theorem nearest_unit (hT : T = .single ∨ T = .double) {x : K} (h0 : 0 ≤ x) (h1 : x ≤ 1) : 0 ≤ T.nearest x ∧ T.nearest x ≤ 1 ∧ InFormat T (T.nearest x) ∧ T.round x = .fin (T.nearest x) := by
  obtain ⟨a1, _⟩ := scalar_facts hT
  have hle : x ≤ 2 ^ (T.t + 1) := h1.trans (one_le_pow₀ one_le_two)
  refine ⟨T.nearest_nonneg a1 h0, ?_, (round_fin hT h0 hle).2, (round_fin hT h0 hle).1⟩
  rw [← nearest_one (K := K) hT]
  exact T.nearest_mono a1 h0 h1

/-- a rounded sum of rounded terms, from the left -/
def sumF (T : Format) (g : Nat → Fl K) (n : Nat) : Fl K := (List.range n).foldl (fun a i => T.conv (Fl.add a (T.conv (g i)))) (.fin 0)

omit [IsStrictOrderedRing K] in
theorem sumF_succ (T : Format) (g : Nat → Fl K) (n : Nat) : sumF T g (n + 1) = T.conv (Fl.add (sumF T g n) (T.conv (g n))) := by
  unfold sumF
  rw [List.range_succ, List.foldl_append, List.foldl_cons, List.foldl_nil]

theorem toBits_nat (t : Nat) (ht : 1 ≤ t) {n : Nat} (h : n ≤ 2 ^ t) : toBits t (n : K) = n := by
  rcases Nat.lt_or_eq_of_le h with h | h
  · exact toBits_small t n h
  · rw [h]; push_cast
    have := toBits_two_pow (K := K) t ht t
    rwa [zpow_natCast] at this

/-- sums of numbers of the format do not underflow: the sum is the one without bounds on the exponents, of the rounded terms -/
theorem sumF_fin (hT : T = .single ∨ T = .double) (ht : 1 ≤ T.t) (g : Nat → Fl K) (y : Nat → K) : ∀ n, n ≤ 2 ^ T.t → (∀ i, i < n → g i = .fin (y i) ∧ 0 ≤ y i ∧ y i ≤ 1) →
    sumF T g n = .fin (sumR (ieee K T.t ht) (fun i => T.nearest (y i)) n) ∧ 0 ≤ sumR (ieee K T.t ht) (fun i => T.nearest (y i)) n ∧
      sumR (ieee K T.t ht) (fun i => T.nearest (y i)) n ≤ n ∧ InFormat T (sumR (ieee K T.t ht) (fun i => T.nearest (y i)) n)
  | 0, _, _ => by
    refine ⟨rfl, le_rfl, by simp [sumR], ?_⟩
    show InFormat T 0
    refine ⟨⟨0, T.emin + 1 - T.t, by simp, le_rfl, by simp⟩, by simpa using zpow_pos (two_pos (α := K)) T.emax⟩
  | n + 1, hn, h => by
    obtain ⟨h1, h2, h3, h4⟩ := sumF_fin hT ht g y n (by omega) fun i hi => h i (by omega)
    obtain ⟨g1, g2, g3⟩ := h n (by omega)
    obtain ⟨q1, q2, q3, q4⟩ := nearest_unit hT g2 g3
    set s := sumR (ieee K T.t ht) (fun i => T.nearest (y i)) n with hs
    have hq : toBits T.t (T.nearest (y n)) = T.nearest (y n) := q3.toBits ht
    obtain ⟨k1, hk1⟩ := h4.multiple
    obtain ⟨k2, hk2⟩ := q3.multiple
    have e : T.nearest (s + T.nearest (y n)) = toBits T.t (s + T.nearest (y n)) :=
      T.nearest_sum ht (k := k1 + k2) (by linarith) (by push_cast; rw [add_mul, ← hk1, ← hk2])
    have hle : s + T.nearest (y n) ≤ ((n + 1 : Nat) : K) := by push_cast; linarith
    have hbig : ((n + 1 : Nat) : K) ≤ 2 ^ (T.t + 1) := by
      have : n + 1 ≤ 2 ^ (T.t + 1) := hn.trans (Nat.pow_le_pow_right (by omega) (by omega))
      exact_mod_cast this
    have hr := round_fin hT (add_nonneg h2 q1) (hle.trans hbig)
    have es : sumR (ieee K T.t ht) (fun i => T.nearest (y i)) (n + 1) = toBits T.t (s + T.nearest (y n)) := by
      rw [sumR_succ]
      show toBits T.t (s + toBits T.t (T.nearest (y n))) = _
      rw [hq]
    rw [es, sumF_succ, h1, g1]
    refine ⟨?_, toBits_nonneg _ (by linarith), ?_, ?_⟩
    · show T.conv (Fl.add (.fin s) (T.round (y n))) = _
      rw [q4]
      show T.round (s + T.nearest (y n)) = _
      rw [hr.1, e]
    · rw [← toBits_nat T.t ht hn]; exact toBits_mono _ ht _ _ hle
    · rw [← e]; exact hr.2

omit [IsStrictOrderedRing K] in
theorem conv_nan (T : Format) : T.conv (.nan : Fl K) = .nan := rfl

omit [IsStrictOrderedRing K] in
theorem Fl.add_nanR (a : Fl K) : Fl.add a .nan = .nan := by cases a <;> rfl

omit [IsStrictOrderedRing K] [FloorRing K] in
theorem Fl.mul_nanR (a : Fl K) : Fl.mul a .nan = .nan := by cases a <;> rfl

omit [IsStrictOrderedRing K] in
/-- once NaN, always NaN -/
theorem sumF_nan (T : Format) (g : Nat → Fl K) (i : Nat) (hi : g i = .nan) : ∀ n, i < n → sumF T g n = .nan
  | 0, h => absurd h (Nat.not_lt_zero _)
  | n + 1, h => by
    rw [sumF_succ]
    rcases Nat.lt_or_eq_of_le (Nat.le_of_lt_succ h) with h | h
    · rw [sumF_nan T g i hi n h]; rfl
    · rw [← h, hi, conv_nan, Fl.add_nanR, conv_nan]

end

namespace St
open Abs
variable {d : Nat} {B : Backend d} {D : Type} [Inhabited D] {K : Type} [Field K] [LinearOrder K] [FloorRing K]

theorem sampleWithF_spec (L : B.Lawful) (T : Format) (dyn : Bool) (w : Nat → Fl K) (f : D → Fl K) (bi : Idx d) (st : St B D) (hI : RInv L dyn st) :
    (∀ x, sampleWithF T dyn w f bi st = some x →
      (st.valid dyn bi = true ∧ bi ∈ st.abs.allocated → x = sumF T (fun c => Fl.mul (w c) (f (st.abs.val c (generateIndex bi c)))) (2 ^ d)) ∧
      (¬ (st.valid dyn bi = true ∧ bi ∈ st.abs.allocated) → x = .fin 0)) ∧
    (st.abs.Good bi → ∃ x, sampleWithF T dyn w f bi st = some x) := by
  unfold sampleWithF
  by_cases hv : st.valid dyn bi = true
  · rw [if_pos hv]
    by_cases hok : B.ok st.bundles bi = true
    · rw [if_pos hok]
      have hl := look_of_ok B st.bundles bi hok
      cases hg : B.get st.bundles bi with
      | none =>
        have hna : bi ∉ st.abs.allocated := by
          rw [mem_allocated_iff]; unfold bundle; rw [hl, hg]; simp
        refine ⟨?_, fun _ => ⟨_, rfl⟩⟩
        intro x hx; cases hx
        exact ⟨fun h => absurd h.2 hna, fun _ => rfl⟩
      | some b =>
        have hb : st.bundle bi = some b := by unfold bundle; rw [hl, hg]
        have ha : bi ∈ st.abs.allocated := by rw [mem_allocated_iff, hb]; rfl
        refine ⟨?_, fun _ => ⟨_, rfl⟩⟩
        intro x hx; cases hx
        refine ⟨fun _ => ?_, fun h => absurd ⟨hv, ha⟩ h⟩
        unfold evaluateF sumF
        rw [twoPow_eq]
        refine List.foldl_ext _ _ _ fun acc c hc => ?_
        obtain ⟨a, h1, h2⟩ := hI.inv.complete bi b hb c (List.mem_range.1 hc)
        rw [h1]
        refine congrArg (fun z => T.conv (Fl.add acc (T.conv (Fl.mul (w c) (f z))))) ?_
        unfold Abs.val
        show _ = (st.content c (generateIndex bi c)).getD default
        unfold St.content; rw [h2]; rfl
    · rw [if_neg hok]
      exact ⟨fun x hx => (by cases hx), fun h => absurd h.1 hok⟩
  · rw [if_neg hv]
    refine ⟨?_, fun _ => ⟨_, rfl⟩⟩
    intro x hx; cases hx
    exact ⟨fun h => absurd h.1 hv, fun _ => rfl⟩

theorem sampleWithF_value {k : Kind d} {exp : D → Bool} {st : St k.backend D} (hR : MapReachable k exp st) (T : Format) (w : Nat → Fl K) (f : D → Fl K)
    (bi : Idx d) (x : Fl K) (hx : sampleWithF T k.dyn w f bi st = some x) :
    (bi ∈ st.bundleIndices → x = sumF T (fun c => Fl.mul (w c) (f (st.abs.val c (generateIndex bi c)))) (2 ^ d)) ∧ (bi ∉ st.bundleIndices → x = .fin 0) := by
  have hI := hR.spec.1
  obtain ⟨h1, h2⟩ := (sampleWithF_spec k.lawful T k.dyn w f bi st hI).1 x hx
  have hal : bi ∈ st.abs.allocated ↔ bi ∈ st.bundleIndices := by
    rw [mem_allocated_iff, mem_bundleIndices k.lawful st hI.inv]
  rw [hal] at h1 h2
  exact ⟨fun h => h1 ⟨hR.valid bi h, h⟩, fun h => h2 fun hh => h hh.2⟩

end St
end Ndt
