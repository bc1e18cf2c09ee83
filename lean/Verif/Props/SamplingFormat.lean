import Verif.Proofs.SamplingFormat
import Verif.Spec.SamplingFormat
import Mathlib.Algebra.BigOperators.Field

/-! Property theorem C114: samples of maps of `float` and `double` over the whole range of these types: subnormal densities, underflow, NaN. -/

namespace Ndt
open St Spec

section
variable {K : Type} [Field K] [LinearOrder K] [IsStrictOrderedRing K] [FloorRing K] {d : Nat} {T : Format}

/-! ### Lemmas -/

theorem divCountF_eq (hT : T = .single ∨ T = .double) (hdt : d ≤ T.t) : divCountF K T d = .fin (1 / 2 ^ d) := by
  obtain ⟨a1, a2, a3, a4, a5, a6, a7⟩ := scalar_facts hT
  obtain ⟨b1, b2, b3⟩ := scalar_wide hT
  have hd' : Format.double.t = 53 ∧ Format.double.emin = -1022 ∧ Format.double.emax = 1024 := ⟨rfl, rfl, rfl⟩
  have e1 : ((twoPow d : Nat) : K) = (2 : K) ^ (d : Int) := by rw [twoPow_eq, zpow_natCast]; push_cast; rfl
  have e2 : (1 : K) / (2 : K) ^ (d : Int) = (2 : K) ^ (-(d : Int)) := by rw [one_div, zpow_neg]
  have h1 := (T.round_between a1 (a := d) (b := d) (by omega) (by omega) (le_refl ((2 : K) ^ (d : Int))) le_rfl).1
  have h2 := (Format.double.round_between (by decide) (a := -d) (b := -d) (by omega) (by omega) (le_refl ((2 : K) ^ (-(d : Int)))) le_rfl).1
  have h3 := (T.round_between a1 (a := -d) (b := -d) (by omega) (by omega) (le_refl ((2 : K) ^ (-(d : Int)))) le_rfl).1
  rw [toBits_two_pow _ a1] at h1 h3
  rw [toBits_two_pow _ (by decide)] at h2
  unfold divCountF
  rw [e1, h1]
  show T.conv (if (2 : K) ^ (d : Int) = 0 then _ else Format.double.round (1 / (2 : K) ^ (d : Int))) = _
  rw [if_neg (zpow_pos two_pos _).ne', e2, h2]
  show T.round _ = _
  rw [h3, ← e2, zpow_natCast]

/-- the mean of the values of the bins, as computed -/
theorem meanF_value {D : Type} [Inhabited D] {k : Kind d} {exp : D → Bool} {st : St k.backend D} (hR : MapReachable k exp st) (hT : T = .single ∨ T = .double) (ht : 1 ≤ T.t) (hdt : d ≤ T.t)
    (f : D → Fl K) (y : D → K) (bi : Idx d) (hb : bi ∈ st.bundleIndices) (hf : ∀ c, c < 2 ^ d → f (st.abs.val c (generateIndex bi c)) = .fin (y (st.abs.val c (generateIndex bi c))) ∧
      0 ≤ y (st.abs.val c (generateIndex bi c)) ∧ y (st.abs.val c (generateIndex bi c)) ≤ 1) (v : Fl K)
    (hv : sampleWithF T k.dyn (fun _ => divCountF K T d) f bi st = some v) :
    v = .fin (sumR (ieee K T.t ht) (fun c => T.nearest (1 / 2 ^ d * y (st.abs.val c (generateIndex bi c)))) (2 ^ d)) ∧
    InFormat T (sumR (ieee K T.t ht) (fun c => T.nearest (1 / 2 ^ d * y (st.abs.val c (generateIndex bi c)))) (2 ^ d)) ∧
    0 ≤ sumR (ieee K T.t ht) (fun c => T.nearest (1 / 2 ^ d * y (st.abs.val c (generateIndex bi c)))) (2 ^ d) ∧
    sumR (ieee K T.t ht) (fun c => T.nearest (1 / 2 ^ d * y (st.abs.val c (generateIndex bi c)))) (2 ^ d) ≤ 1 ∧
    ∀ c, c < 2 ^ d → 0 ≤ T.nearest (1 / 2 ^ d * y (st.abs.val c (generateIndex bi c))) := by
  obtain ⟨a1, a2, a3, a4, a5, a6, a7⟩ := scalar_facts hT
  obtain ⟨b1, b2, b3⟩ := scalar_wide hT
  have hp : (0 : K) < 1 / 2 ^ d := by positivity
  have hp1 : (1 : K) / 2 ^ d ≤ 1 := by rw [div_le_one (by positivity)]; exact one_le_pow₀ one_le_two
  have hfix : T.nearest ((1 : K) / 2 ^ d) = 1 / 2 ^ d := by
    have := T.nearest_fix ht (zpow_pos (two_pos (α := K)) (-(d : Int))).le (pow_inFormat (K := K) hT (n := -d) (by omega) (by omega))
    rwa [zpow_neg, zpow_natCast, ← one_div] at this
  have h2 := (sampleWithF_value hR T _ f bi v hv).1 hb
  have h3 := sumF_fin hT ht (fun c => Fl.mul (divCountF K T d) (f (st.abs.val c (generateIndex bi c)))) (fun c => 1 / 2 ^ d * y (st.abs.val c (generateIndex bi c))) (2 ^ d)
    (Nat.pow_le_pow_right (by omega) hdt) (fun c hc => by
      obtain ⟨e, y0, y1⟩ := hf c hc
      refine ⟨?_, mul_nonneg hp.le y0, (mul_le_of_le_one_right hp.le y1).trans hp1⟩
      show Fl.mul (divCountF K T d) (f _) = _
      rw [divCountF_eq hT hdt, e]; rfl)
  have hq : ∀ c, c < 2 ^ d → 0 ≤ T.nearest (1 / 2 ^ d * y (st.abs.val c (generateIndex bi c))) ∧ T.nearest (1 / 2 ^ d * y (st.abs.val c (generateIndex bi c))) ≤ 1 / 2 ^ d := fun c hc => by
    obtain ⟨_, y0, y1⟩ := hf c hc
    refine ⟨T.nearest_nonneg ht (mul_nonneg hp.le y0), ?_⟩
    have := T.nearest_mono ht (mul_nonneg hp.le y0) (mul_le_of_le_one_right hp.le y1)
    rwa [hfix] at this
  refine ⟨h2.trans h3.1, h3.2.2.2, h3.2.1, ?_, fun c hc => (hq c hc).1⟩
  refine (sumR_unit T.t d ht hdt _ hq (2 ^ d) le_rfl).trans (le_of_eq ?_)
  push_cast
  exact div_self (by positivity)

theorem unit_roundoff_lt (t : Nat) (ht : 1 ≤ t) : (ieee K t ht).u < 1 := by
  show ((2 : K) ^ t)⁻¹ < 1
  exact inv_lt_one_of_one_lt₀ (one_lt_pow₀ one_lt_two (by omega))

theorem nearest_pos_iff (ht : 1 ≤ T.t) {x : K} (h0 : 0 ≤ x) : 0 < T.nearest x ↔ halfSmallest K T < x := by
  have hle : (2 : K) ^ (T.emin - (T.t : Int)) < (2 : K) ^ T.emin := zpow_lt_zpow_right₀ one_lt_two (by omega)
  unfold halfSmallest
  rcases lt_or_ge x ((2 : K) ^ T.emin) with h1 | h1
  · have := T.nearest_small_zero h0 h1
    rw [lt_iff_le_and_ne, ← not_le, ← this]
    exact ⟨fun h e => h.2 e.symm, fun h => ⟨T.nearest_nonneg ht h0, fun e => h e.symm⟩⟩
  · have hx := lt_of_lt_of_le hle h1
    rw [T.nearest_normal (by rwa [abs_of_nonneg h0])]
    exact ⟨fun _ => hx, fun _ => Format.toBits_pos _ ht ((zpow_pos two_pos _).trans hx)⟩

theorem sumR_pos_iff (t : Nat) (ht : 1 ≤ t) (q : Nat → K) (n : Nat) (hq : ∀ i, i < n → 0 ≤ q i) : 0 < sumR (ieee K t ht) q n ↔ ∃ i, i < n ∧ 0 < q i := by
  have hu := unit_roundoff_lt (K := K) t ht
  constructor
  · intro h
    by_contra hc
    push Not at hc
    have := sumR_upper (ieee K t ht) q n hq
    rw [Finset.sum_eq_zero fun i hi => le_antisymm (hc i (Finset.mem_range.1 hi)) (hq i (Finset.mem_range.1 hi)), zero_mul] at this
    exact absurd h (not_lt.2 this)
  · rintro ⟨i, hi, h⟩
    refine lt_of_lt_of_le ?_ (sumR_lower (ieee K t ht) hu.le q n hq)
    refine mul_pos (Finset.sum_pos' (fun j hj => hq j (Finset.mem_range.1 hj)) ⟨i, Finset.mem_range.2 hi, h⟩) (pow_pos (by linarith) _)

omit [IsStrictOrderedRing K] [FloorRing K] in
theorem choose_values {D : Type} (f : D → Fl K) (hf : ∀ s, UnitNumber T (f s)) : ∃ y : D → K, ∀ s, f s = .fin (y s) ∧ InFormat T (y s) ∧ 0 ≤ y s ∧ y s ≤ 1 :=
  ⟨fun s => (hf s).choose, fun s => (hf s).choose_spec⟩

/-! ### C114, sampling without interpolation -/

/-- **C114.** If the densities are numbers from 0 to 1, subnormal ones included, then so is every sample. -/
theorem C114_nearest_unit {D : Type} [Inhabited D] (k : Kind d) (exp : D → Bool) (st : St k.backend D) (hR : MapReachable k exp st) (hT : T = .single ∨ T = .double) (hdt : d ≤ T.t)
    (g : Geo K d) (dens : D → Pt K d → Fl K) (hd : ∀ s q, UnitNumber T (dens s q)) (p : Pt K d) (v : Fl K) (hv : sampleNNAtF T g k.dyn dens p st = some v) : UnitNumber T v := by
  obtain ⟨bi, _, hv⟩ := Option.bind_eq_some_iff.1 hv
  obtain ⟨y, hy⟩ := choose_values (fun s => dens s (g.toMap p)) fun s => hd s _
  by_cases hb : bi ∈ st.bundleIndices
  · obtain ⟨h1, h2, h3, h4, _⟩ := meanF_value hR hT (scalar_facts hT).1 hdt _ y bi hb (fun c _ => ⟨(hy _).1, (hy _).2.2⟩) v hv
    exact ⟨_, h1, h2, h3, h4⟩
  · refine ⟨0, (sampleWithF_value hR T _ _ bi v hv).2 hb, ?_, le_rfl, zero_le_one⟩
    exact ⟨⟨0, T.emin + 1 - T.t, by simp, le_rfl, by simp⟩, by simpa using zpow_pos (two_pos (α := K)) T.emax⟩

/-- **C114.** A sample is the mean of the densities of the bins of the point, up to a relative error of `2^d + 1` roundings and an absolute error, by underflow, of half the smallest
positive number for each bin. -/
theorem C114_nearest_error {D : Type} [Inhabited D] (k : Kind d) (exp : D → Bool) (st : St k.backend D) (hR : MapReachable k exp st) (hT : T = .single ∨ T = .double) (hdt : d ≤ T.t)
    (g : Geo K d) (dens : D → Pt K d → Fl K) (hd : ∀ s q, UnitNumber T (dens s q)) (p : Pt K d) (bi : Idx d) (hbi : finiteIndexF T g.r (g.toMap p) = some bi) (v : Fl K)
    (hv : sampleNNAtF T g k.dyn dens p st = some v) :
    (bi ∈ st.bundleIndices → ∃ (s : Nat → D) (y : Nat → K) (x : K), (∀ c, c < 2 ^ d → st.binContent bi c = some (s c) ∧ dens (s c) (g.toMap p) = .fin (y c)) ∧ v = .fin x ∧
      ((∑ c ∈ Finset.range (2 ^ d), y c) / 2 ^ d - 2 ^ d * halfSmallest K T) * (1 - ((2 : K) ^ T.t)⁻¹) ^ (2 ^ d + 1) ≤ x ∧
      x ≤ ((∑ c ∈ Finset.range (2 ^ d), y c) / 2 ^ d + 2 ^ d * halfSmallest K T) * (1 + ((2 : K) ^ T.t)⁻¹) ^ (2 ^ d + 1)) ∧
    (bi ∉ st.bundleIndices → v = .fin 0) := by
  have ht := (scalar_facts hT).1
  unfold sampleNNAtF at hv
  rw [hbi, Option.bind_some] at hv
  obtain ⟨y, hy⟩ := choose_values (fun s => dens s (g.toMap p)) fun s => hd s _
  refine ⟨fun hb => ?_, (sampleWithF_value hR T _ _ bi v hv).2⟩
  obtain ⟨h1, h2, h3, h4, h5⟩ := meanF_value hR hT ht hdt _ y bi hb (fun c _ => ⟨(hy _).1, (hy _).2.2⟩) v hv
  refine ⟨fun c => st.abs.val c (generateIndex bi c), fun c => y (st.abs.val c (generateIndex bi c)), _, fun c hc => ⟨binContent_val hR hb hc, (hy _).1⟩, h1, ?_⟩
  have hu : ((2 : K) ^ T.t)⁻¹ < 1 := unit_roundoff_lt (K := K) T.t ht
  have hu0 : (0 : K) ≤ ((2 : K) ^ T.t)⁻¹ := (ieee K T.t ht).nonneg
  have hs : |∑ c ∈ Finset.range (2 ^ d), T.nearest (1 / 2 ^ d * y (st.abs.val c (generateIndex bi c))) - (∑ c ∈ Finset.range (2 ^ d), y (st.abs.val c (generateIndex bi c))) / 2 ^ d| ≤
      2 ^ d * halfSmallest K T := by
    rw [Finset.sum_div, ← Finset.sum_sub_distrib]
    refine (Finset.abs_sum_le_sum_abs _ _).trans ?_
    refine (Finset.sum_le_card_nsmul _ _ (halfSmallest K T) fun c _ => ?_).trans (le_of_eq ?_)
    · have := T.nearest_scaled ht (hy (st.abs.val c (generateIndex bi c))).2.1 (hy _).2.2.1 d
      rwa [show y (st.abs.val c (generateIndex bi c)) / 2 ^ d = 1 / 2 ^ d * y (st.abs.val c (generateIndex bi c)) by ring]
    · rw [Finset.card_range, nsmul_eq_mul]; push_cast; rfl
  obtain ⟨s1, s2⟩ := abs_le.1 hs
  constructor
  · refine le_trans ?_ (sumR_lower (ieee K T.t ht) hu.le _ _ h5)
    exact mul_le_mul_of_nonneg_right (by linarith) (pow_nonneg (by linarith) _)
  · refine (sumR_upper (ieee K T.t ht) _ _ h5).trans ?_
    exact mul_le_mul_of_nonneg_right (by linarith) (pow_nonneg (show (0 : K) ≤ 1 + ((2 : K) ^ T.t)⁻¹ by linarith) _)

/-- **C114.** Exactly when a sample is positive: some bin of the point has a density above `2^d` times half the smallest positive number. In particular no sample is positive without a positive density. -/
theorem C114_nearest_positive {D : Type} [Inhabited D] (k : Kind d) (exp : D → Bool) (st : St k.backend D) (hR : MapReachable k exp st) (hT : T = .single ∨ T = .double) (hdt : d ≤ T.t)
    (g : Geo K d) (dens : D → Pt K d → Fl K) (hd : ∀ s q, UnitNumber T (dens s q)) (p : Pt K d) (bi : Idx d) (hbi : finiteIndexF T g.r (g.toMap p) = some bi) (x : K)
    (hv : sampleNNAtF T g k.dyn dens p st = some (.fin x)) :
    0 < x ↔ bi ∈ st.bundleIndices ∧ ∃ c s y, c < 2 ^ d ∧ st.binContent bi c = some s ∧ dens s (g.toMap p) = .fin y ∧ 2 ^ d * halfSmallest K T < y := by
  have ht := (scalar_facts hT).1
  unfold sampleNNAtF at hv
  rw [hbi, Option.bind_some] at hv
  obtain ⟨y, hy⟩ := choose_values (fun s => dens s (g.toMap p)) fun s => hd s _
  by_cases hb : bi ∈ st.bundleIndices
  · obtain ⟨h1, h2, h3, h4, h5⟩ := meanF_value hR hT ht hdt _ y bi hb (fun c _ => ⟨(hy _).1, (hy _).2.2⟩) _ hv
    cases h1
    have e : ∀ c, 0 < T.nearest (1 / 2 ^ d * y (st.abs.val c (generateIndex bi c))) ↔ 2 ^ d * halfSmallest K T < y (st.abs.val c (generateIndex bi c)) := fun c => by
      have hp : (0 : K) < 2 ^ d := by positivity
      rw [nearest_pos_iff ht (mul_nonneg (by positivity) (hy _).2.2.1), one_div_mul_eq_div, lt_div_iff₀ hp, mul_comm]
    rw [sumR_pos_iff _ ht _ _ h5]
    constructor
    · rintro ⟨c, hc, h⟩
      exact ⟨hb, c, _, _, hc, binContent_val hR hb hc, (hy _).1, (e c).1 h⟩
    · rintro ⟨_, c, s, z, hc, hs, hz, h⟩
      rw [binContent_val hR hb hc, Option.some.injEq] at hs
      rw [← hs, (hy _).1, Fl.fin.injEq] at hz
      exact ⟨c, hc, (e c).2 (by rw [hz]; exact h)⟩
  · have := (sampleWithF_value hR T _ _ bi _ hv).2 hb
    cases this
    exact ⟨fun h => absurd h (lt_irrefl _), fun h => absurd h.1 hb⟩

/-- **C114.** A sample is NaN exactly if the density of some bin of the point is. -/
theorem C114_nearest_nan {D : Type} [Inhabited D] (k : Kind d) (exp : D → Bool) (st : St k.backend D) (hR : MapReachable k exp st) (hT : T = .single ∨ T = .double) (hdt : d ≤ T.t)
    (g : Geo K d) (dens : D → Pt K d → Fl K) (hd : ∀ s q, dens s q = .nan ∨ UnitNumber T (dens s q)) (p : Pt K d) (bi : Idx d) (hbi : finiteIndexF T g.r (g.toMap p) = some bi) (v : Fl K)
    (hv : sampleNNAtF T g k.dyn dens p st = some v) :
    v = .nan ↔ bi ∈ st.bundleIndices ∧ ∃ c s, c < 2 ^ d ∧ st.binContent bi c = some s ∧ dens s (g.toMap p) = .nan := by
  unfold sampleNNAtF at hv
  rw [hbi, Option.bind_some] at hv
  obtain ⟨h1, h2⟩ := sampleWithF_value hR T _ _ bi v hv
  by_cases hb : bi ∈ st.bundleIndices
  · constructor
    · intro hn
      refine ⟨hb, ?_⟩
      by_contra hc
      push Not at hc
      have hu : ∀ c, c < 2 ^ d → UnitNumber T (dens (st.abs.val c (generateIndex bi c)) (g.toMap p)) := fun c hcd =>
        (hd _ _).resolve_left (hc c _ hcd (binContent_val hR hb hcd))
      classical
      obtain ⟨e, _⟩ := meanF_value hR hT (scalar_facts hT).1 hdt (fun s => dens s (g.toMap p)) (fun s => if h : UnitNumber T (dens s (g.toMap p)) then h.choose else 0) bi hb
        (fun c hcd => by
          have := (hu c hcd).choose_spec
          rw [dif_pos (hu c hcd)]
          exact ⟨this.1, this.2.2⟩) v hv
      rw [hn] at e
      cases e
    · rintro ⟨_, c, s, hc, hs, hn⟩
      rw [binContent_val hR hb hc, Option.some.injEq] at hs
      rw [h1 hb]
      refine sumF_nan T _ c ?_ _ hc
      show Fl.mul _ (dens (st.abs.val c (generateIndex bi c)) (g.toMap p)) = .nan
      rw [hs, hn, Fl.mul_nanR]
  · rw [h2 hb]
    exact ⟨fun h => (by cases h), fun h => absurd h.1 hb⟩

end
end Ndt
