import Verif.Proofs.SamplingRounded
import Verif.Props.Rounding
import Verif.Props.Sampling
import Verif.Proofs.SerialMap

/-! Property theorem C83: what the sampling functions return when they compute in floating point. -/

namespace Ndt
open St

section
variable {K : Type} [Field K] [LinearOrder K] [IsStrictOrderedRing K] [FloorRing K] {d : Nat}

/-! ### Lemmas -/

omit [IsStrictOrderedRing K] in
/-- Maps filled with rounded quantisation are reachable in the sense of the theorems below. -/
theorem gridR_reachable (R : Arith K) (g : Geo K d) (k : Kind d) (exp : Multiset (Pt K d) → Bool) : ∀ (ops : List (GridOp K d)) (st st' : St k.backend (Multiset (Pt K d))),
    MapReachable k exp st → gridRunR R g k.dyn exp ops st = some st' → MapReachable k exp st'
  | [], st, st', hR, h => by cases h; exact hR
  | op :: ops, st, st', hR, h => by
    simp only [gridRunR] at h
    obtain ⟨st1, h1, h2⟩ := Option.bind_eq_some_iff.1 h
    refine gridR_reachable R g k exp ops st1 st' ?_ h2
    cases op with
    | insert pose cloud =>
      simp only [gridStepR, gridInsertR] at h1
      obtain ⟨u, hu, h1⟩ := Option.bind_eq_some_iff.1 h1
      refine .updates _ st st1 hR ?_ h1
      intro e he
      obtain ⟨x, hx, rfl⟩ := List.mem_map.1 he
      have hx' := List.mem_map_of_mem (f := Prod.fst) hx
      rw [(collectR_eq R g _ pose u cloud [] hu).1, mem_foldl_upsert] at hx'
      rcases hx' with hx' | ⟨p, hp, hpx⟩
      · exact absurd hx' (by simp)
      · show st.valid k.dyn x.1 = true
        rw [← hpx]
        exact (List.mem_filter.1 hp).2
    | core op => exact .core op st st1 hR h1

theorem divCountR_ieee (t : Nat) (ht : 1 ≤ t) : divCountR (ieeeArith K t ht) d = 1 / 2 ^ d := by
  have e1 : ((twoPow d : Nat) : K) = (2 : K) ^ (d : Int) := by rw [twoPow_eq, zpow_natCast]; push_cast; rfl
  have e2 : (1 : K) / (2 : K) ^ (d : Int) = (2 : K) ^ (-(d : Int)) := by rw [one_div, zpow_neg]
  unfold divCountR
  show toBits t (toBits 53 (1 / toBits t _)) = _
  rw [e1, toBits_two_pow t ht, e2, toBits_two_pow 53 (by decide), toBits_two_pow t ht, zpow_neg, zpow_natCast, one_div]

theorem unit_roundoff (t : Nat) (ht : 1 ≤ t) : (ieeeArith K t ht).T.u ≤ 1 := by
  show ((2 : K) ^ t)⁻¹ ≤ 1
  exact inv_le_one_of_one_le₀ (one_le_pow₀ one_le_two)

/-- the position in the bundle, as computed, is exact up to one rounding -/
theorem position_mem (t : Nat) (ht : 1 ≤ t) (r : K) (p : Pt K d) (bi : Idx d) (h : toBundleIndexR (ieeeArith K t ht) r p = some bi) (i : Fin d) :
    toBits t ((bi i : Int) : K) = (bi i : K) ∧
    0 ≤ toBits t (p i * bundleResolutionInvR (ieeeArith K t ht) r) - (bi i : K) ∧ toBits t (p i * bundleResolutionInvR (ieeeArith K t ht) r) - (bi i : K) < 1 := by
  obtain ⟨h1, _⟩ := (toBundleIndexR_eq_some _ r p bi).1 h i
  have hb : Spec.HasBits t (toBits t (p i * bundleResolutionInvR (ieeeArith K t ht) r)) := (C77_ieee t ht _).1
  have hf := hasBits_floor t hb
  have e : ⌊toBits t (p i * bundleResolutionInvR (ieeeArith K t ht) r)⌋ = bi i := h1
  rw [e] at hf
  refine ⟨toBits_of_hasBits t ht hf, ?_, ?_⟩
  · have := Int.floor_le (toBits t (p i * bundleResolutionInvR (ieeeArith K t ht) r))
    rw [e] at this; linarith
  · have := Int.lt_floor_add_one (toBits t (p i * bundleResolutionInvR (ieeeArith K t ht) r))
    rw [e] at this; linarith

/-- the weights of the dimensions -/
theorem weightsR_mem (t : Nat) (ht : 1 ≤ t) (r : K) (p : Pt K d) (bi : Idx d) (h : toBundleIndexR (ieeeArith K t ht) r p = some bi) (i : Fin d) :
    0 ≤ interpolationWeightsR (ieeeArith K t ht) bi p (bundleResolutionInvR (ieeeArith K t ht) r) i ∧
    interpolationWeightsR (ieeeArith K t ht) bi p (bundleResolutionInvR (ieeeArith K t ht) r) i ≤ 1 := by
  obtain ⟨h1, h2, h3⟩ := position_mem t ht r p bi h i
  have x0 : 0 ≤ toBits t (toBits t (p i * bundleResolutionInvR (ieeeArith K t ht) r) - toBits t ((bi i : Int) : K)) := by
    rw [h1]; exact toBits_nonneg t h2
  have x1 : toBits t (toBits t (p i * bundleResolutionInvR (ieeeArith K t ht) r) - toBits t ((bi i : Int) : K)) ≤ 1 := by
    rw [h1]
    have := toBits_mono t ht _ _ h3.le
    rwa [toBits_one t ht] at this
  unfold interpolationWeightsR
  show 0 ≤ (if bi i % 2 ≠ 0 then toBits t (toBits t _ - toBits t _) else toBits t (1 - toBits t (toBits t _ - toBits t _))) ∧ _ ≤ (1 : K)
  split
  · exact ⟨x0, x1⟩
  · refine ⟨toBits_nonneg t (by linarith), ?_⟩
    have := toBits_mono t ht (1 - toBits t (toBits t (p i * bundleResolutionInvR (ieeeArith K t ht) r) - toBits t ((bi i : Int) : K))) 1 (by linarith)
    rwa [toBits_one t ht] at this

/-- the value of a bin of an allocated bundle -/
theorem binContent_val {D : Type} [Inhabited D] {k : Kind d} {exp : D → Bool} {st : St k.backend D} (hR : MapReachable k exp st) {bi : Idx d} (hb : bi ∈ st.bundleIndices)
    {c : Nat} (hc : c < 2 ^ d) : st.binContent bi c = some (st.abs.val c (generateIndex bi c)) := by
  have hI := hR.spec.1
  obtain ⟨bb, hbb⟩ := Option.isSome_iff_exists.1 ((mem_bundleIndices k.lawful st hI.inv bi).1 hb)
  obtain ⟨a, h3, h4⟩ := hI.inv.complete bi bb hbb c hc
  unfold binContent
  rw [hbb]
  simp only [Option.bind_some, h3, Option.map_some]
  refine congrArg some ?_
  show _ = (st.content c (generateIndex bi c)).getD default
  unfold St.content; rw [h4]; rfl

theorem sampleWithR_value {D : Type} [Inhabited D] {k : Kind d} {exp : D → Bool} {st : St k.backend D} (hR : MapReachable k exp st) (R : Arith K) (w : Nat → K) (f : D → K)
    (bi : Idx d) (x : K) (hx : sampleWithR R k.dyn w f bi st = some x) :
    (bi ∈ st.bundleIndices → x = sumR R.T (fun c => w c * f (st.abs.val c (generateIndex bi c))) (2 ^ d)) ∧ (bi ∉ st.bundleIndices → x = 0) := by
  have hI := hR.spec.1
  obtain ⟨h1, h2⟩ := (sampleWithR_spec k.lawful R k.dyn w f bi st hI).1 x hx
  have hal : bi ∈ st.abs.allocated ↔ bi ∈ st.bundleIndices := by
    rw [mem_allocated_iff, mem_bundleIndices k.lawful st hI.inv]
  rw [hal] at h1 h2
  exact ⟨fun h => h1 ⟨hR.valid bi h, h⟩, fun h => h2 fun hh => h hh.2⟩

theorem mean_unit {D : Type} [Inhabited D] {k : Kind d} {exp : D → Bool} {st : St k.backend D} (hR : MapReachable k exp st) (t : Nat) (ht : 1 ≤ t) (hdt : d ≤ t) (f : D → K)
    (hf : ∀ s, 0 ≤ f s ∧ f s ≤ 1) (bi : Idx d) (x : K)
    (hx : sampleWithR (ieeeArith K t ht) k.dyn (fun _ => divCountR (ieeeArith K t ht) d) f bi st = some x) : 0 ≤ x ∧ x ≤ 1 := by
  obtain ⟨h1, h2⟩ := sampleWithR_value hR _ _ f bi x hx
  by_cases hb : bi ∈ st.bundleIndices
  · rw [h1 hb, divCountR_ieee]
    have hp : (0 : K) ≤ 1 / 2 ^ d := by positivity
    have hg : ∀ i, i < 2 ^ d → 0 ≤ 1 / 2 ^ d * f (st.abs.val i (generateIndex bi i)) ∧ 1 / 2 ^ d * f (st.abs.val i (generateIndex bi i)) ≤ (1 : K) / 2 ^ d :=
      fun i _ => ⟨mul_nonneg hp (hf _).1, mul_le_of_le_one_right hp (hf _).2⟩
    refine ⟨sumR_nonneg _ _ _ fun i hi => (hg i hi).1, ?_⟩
    refine (sumR_unit t d ht hdt _ hg (2 ^ d) le_rfl).trans (le_of_eq ?_)
    push_cast
    exact div_self (by positivity)
  · rw [h2 hb]; exact ⟨le_rfl, zero_le_one⟩

theorem interpolation_bounds {D : Type} [Inhabited D] {k : Kind d} {exp : D → Bool} {st : St k.backend D} (hR : MapReachable k exp st) (R : Arith K) (hu1 : R.T.u ≤ 1) (w : Fin d → K)
    (hw : ∀ i, 0 ≤ w i ∧ w i ≤ 1) (f : D → K) (hf : ∀ s, 0 ≤ f s) (bi : Idx d) (hb : bi ∈ st.bundleIndices) (x : K)
    (hx : sampleWithR R k.dyn (interpolationWeightR R w) f bi st = some x) :
    (∑ c ∈ Finset.range (2 ^ d), interpolationWeight w c * f (st.abs.val c (generateIndex bi c))) * (1 - R.T.u) ^ (2 ^ d + 2 * d + 1) ≤ x ∧
    x ≤ (∑ c ∈ Finset.range (2 ^ d), interpolationWeight w c * f (st.abs.val c (generateIndex bi c))) * (1 + R.T.u) ^ (2 ^ d + 2 * d + 1) := by
  have hu := R.T.nonneg
  have hW := fun c => interpolationWeightR_bounds R hu1 w hw c
  rw [(sampleWithR_value hR R _ f bi x hx).1 hb]
  have hpos : ∀ c, c < 2 ^ d → 0 ≤ interpolationWeightR R w c * f (st.abs.val c (generateIndex bi c)) := fun c _ => mul_nonneg (hW c).2.2.1 (hf _)
  constructor
  · refine le_trans ?_ (sumR_lower R.T hu1 _ _ hpos)
    rw [show 2 ^ d + 2 * d + 1 = 2 * d + (2 ^ d + 1) by omega, pow_add, ← mul_assoc]
    refine mul_le_mul_of_nonneg_right ?_ (pow_nonneg (sub_nonneg.2 hu1) _)
    rw [Finset.sum_mul]
    refine Finset.sum_le_sum fun c _ => ?_
    calc _ = interpolationWeight w c * (1 - R.T.u) ^ (2 * d) * f (st.abs.val c (generateIndex bi c)) := by ring
      _ ≤ _ := mul_le_mul_of_nonneg_right (hW c).1 (hf _)
  · refine (sumR_upper R.T _ _ hpos).trans ?_
    have e : (1 + R.T.u) ^ (2 ^ d + 2 * d + 1) = (1 + R.T.u) ^ (2 * d) * (1 + R.T.u) ^ (2 ^ d + 1) := by rw [← pow_add]; congr 1; omega
    rw [e, ← mul_assoc]
    refine mul_le_mul_of_nonneg_right ?_ (pow_nonneg (show 0 ≤ 1 + R.T.u by linarith) _)
    rw [Finset.sum_mul]
    refine Finset.sum_le_sum fun c _ => ?_
    calc _ ≤ interpolationWeight w c * (1 + R.T.u) ^ (2 * d) * f (st.abs.val c (generateIndex bi c)) := mul_le_mul_of_nonneg_right (hW c).2.1 (hf _)
      _ = _ := by ring

/-! ### C83, sampling without interpolation -/

/-- **C83.** Without interpolation, a sample of a map of floats (24 bits) or doubles (53 bits) is in `[0, 1]` if all densities are: rounding never leads out of the interval. -/
theorem C83_nearest_unit {D : Type} [Inhabited D] (k : Kind d) (exp : D → Bool) (st : St k.backend D) (hR : MapReachable k exp st) (t : Nat) (ht : 1 ≤ t) (hdt : d ≤ t)
    (g : Geo K d) (dens : D → Pt K d → K) (hd : ∀ s q, 0 ≤ dens s q ∧ dens s q ≤ 1) (p : Pt K d) (x : K)
    (hx : sampleNNAtR (ieeeArith K t ht) g k.dyn dens p st = some x) : 0 ≤ x ∧ x ≤ 1 := by
  obtain ⟨bi, _, hx⟩ := Option.bind_eq_some_iff.1 hx
  exact mean_unit hR t ht hdt _ (fun s => hd s _) bi x hx

/-- **C83.** The same for occupancy maps, whose samples are products of densities and occupancies. -/
theorem C83_occupancy_unit {W E M : Type} [Inhabited (Occ W E)] (k : Kind d) (exp : Occ W E → Bool) (st : St k.backend (Occ W E)) (hR : MapReachable k exp st) (t : Nat)
    (ht : 1 ≤ t) (hdt : d ≤ t) (g : Geo K d) (dens : Multiset E → Pt K d → K) (hd : ∀ s q, 0 ≤ dens s q ∧ dens s q ≤ 1) (occ : M → Occ W E → K) (m : M)
    (ho : ∀ o, 0 ≤ occ m o ∧ occ m o ≤ 1) (p : Pt K d) (x : K)
    (hx : occSampleNNAtR (ieeeArith K t ht) g k.dyn dens occ p (some m) st = .ok (some x)) : 0 ≤ x ∧ x ≤ 1 := by
  unfold occSampleNNAtR at hx
  cases hb : toBundleIndexR (ieeeArith K t ht) g.r (g.toMap p) with
  | none => rw [hb] at hx; simp at hx
  | some bi =>
    rw [hb] at hx
    simp only [Except.ok.injEq] at hx
    refine mean_unit hR t ht hdt _ (fun o => ?_) bi x hx
    unfold occValueR
    cases o.data with
    | none => exact ⟨le_rfl, zero_le_one⟩
    | some s =>
      have h0 := mul_nonneg (hd s (g.toMap p)).1 (ho o).1
      refine ⟨toBits_nonneg t h0, ?_⟩
      have := toBits_mono t ht _ _ (mul_le_one₀ (hd s (g.toMap p)).2 (ho o).1 (ho o).2)
      rwa [toBits_one t ht] at this

/-- **C83.** A sample without interpolation is the mean of the densities of the bundle of the point up to a relative error of `2^d + 1` roundings, and 0 without such a bundle. -/
theorem C83_nearest_error {D : Type} [Inhabited D] (k : Kind d) (exp : D → Bool) (st : St k.backend D) (hR : MapReachable k exp st) (t : Nat) (ht : 1 ≤ t)
    (g : Geo K d) (dens : D → Pt K d → K) (hd : ∀ s q, 0 ≤ dens s q) (p : Pt K d) (bi : Idx d) (hbi : toBundleIndexR (ieeeArith K t ht) g.r (g.toMap p) = some bi) (x : K)
    (hx : sampleNNAtR (ieeeArith K t ht) g k.dyn dens p st = some x) :
    (bi ∈ st.bundleIndices → ∃ s : Nat → D, (∀ c, c < 2 ^ d → st.binContent bi c = some (s c)) ∧
      (∑ c ∈ Finset.range (2 ^ d), dens (s c) (g.toMap p)) / 2 ^ d * (1 - ((2 : K) ^ t)⁻¹) ^ (2 ^ d + 1) ≤ x ∧
      x ≤ (∑ c ∈ Finset.range (2 ^ d), dens (s c) (g.toMap p)) / 2 ^ d * (1 + ((2 : K) ^ t)⁻¹) ^ (2 ^ d + 1)) ∧
    (bi ∉ st.bundleIndices → x = 0) := by
  unfold sampleNNAtR at hx
  rw [hbi, Option.bind_some] at hx
  obtain ⟨h1, h2⟩ := sampleWithR_value hR _ _ _ bi x hx
  refine ⟨fun hb => ⟨fun c => st.abs.val c (generateIndex bi c), fun c hc => binContent_val hR hb hc, ?_⟩, h2⟩
  have hp : (0 : K) ≤ 1 / 2 ^ d := by positivity
  have hpos : ∀ c, c < 2 ^ d → 0 ≤ 1 / 2 ^ d * dens (st.abs.val c (generateIndex bi c)) (g.toMap p) := fun c _ => mul_nonneg hp (hd _ _)
  rw [h1 hb, divCountR_ieee]
  have e : (∑ c ∈ Finset.range (2 ^ d), dens (st.abs.val c (generateIndex bi c)) (g.toMap p)) / 2 ^ d =
      ∑ c ∈ Finset.range (2 ^ d), 1 / 2 ^ d * dens (st.abs.val c (generateIndex bi c)) (g.toMap p) := by
    rw [← Finset.mul_sum]; ring
  rw [e]
  exact ⟨sumR_lower _ (unit_roundoff t ht) _ _ hpos, sumR_upper _ _ _ hpos⟩

/-! ### C83, sampling with interpolation -/

/-- **C83.** Every computed weight of a bin is in `[0, 1]`. -/
theorem C83_weights_unit (t : Nat) (ht : 1 ≤ t) (r : K) (p : Pt K d) (bi : Idx d) (h : toBundleIndexR (ieeeArith K t ht) r p = some bi) (c : Nat) :
    0 ≤ interpolationWeightR (ieeeArith K t ht) (interpolationWeightsR (ieeeArith K t ht) bi p (bundleResolutionInvR (ieeeArith K t ht) r)) c ∧
    interpolationWeightR (ieeeArith K t ht) (interpolationWeightsR (ieeeArith K t ht) bi p (bundleResolutionInvR (ieeeArith K t ht) r)) c ≤ 1 := by
  have hw := weightsR_mem t ht r p bi h
  rw [interpolationWeightR_eq]
  refine foldl_mul_unit _ (toBits_one t ht) _ 1 zero_le_one le_rfl fun y hy => ?_
  obtain ⟨i, _, rfl⟩ := List.mem_map.1 hy
  split
  · exact hw i
  · refine ⟨toBits_nonneg t (by linarith [(hw i).2]), ?_⟩
    have := toBits_mono t ht _ _ (show 1 - interpolationWeightsR (ieeeArith K t ht) bi p (bundleResolutionInvR (ieeeArith K t ht) r) i ≤ 1 by linarith [(hw i).1])
    rwa [toBits_one t ht] at this

/-- **C83 (partial).** An interpolated sample lies between the smallest and the largest density of the bundle of the point, up to a relative error of `2^d + 2 d + 1` roundings. Missing: without
that error, refuted below. -/
theorem C83_bilinear_bounds_partial {D : Type} [Inhabited D] (k : Kind d) (exp : D → Bool) (st : St k.backend D) (hR : MapReachable k exp st) (t : Nat) (ht : 1 ≤ t)
    (g : Geo K d) (dens : D → Pt K d → K) (lo hi : K) (h0 : 0 ≤ lo) (hd : ∀ s q, lo ≤ dens s q ∧ dens s q ≤ hi) (p : Pt K d) (bi : Idx d)
    (hbi : toBundleIndexR (ieeeArith K t ht) g.r (g.toMap p) = some bi) (x : K) (hx : sampleBilinearAtR (ieeeArith K t ht) g k.dyn dens p st = some x) :
    (bi ∈ st.bundleIndices → lo * (1 - ((2 : K) ^ t)⁻¹) ^ (2 ^ d + 2 * d + 1) ≤ x ∧ x ≤ hi * (1 + ((2 : K) ^ t)⁻¹) ^ (2 ^ d + 2 * d + 1)) ∧
    (bi ∉ st.bundleIndices → x = 0) := by
  unfold sampleBilinearAtR at hx
  rw [hbi, Option.bind_some] at hx
  refine ⟨fun hb => ?_, (sampleWithR_value hR _ _ _ bi x hx).2⟩
  have hu := (ieeeArith K t ht).T.nonneg
  have hu1 := unit_roundoff (K := K) t ht
  have hw := weightsR_mem t ht g.r (g.toMap p) bi hbi
  obtain ⟨h1, h2⟩ := interpolation_bounds hR (ieeeArith K t ht) hu1 _ hw _ (fun s => h0.trans (hd s (g.toMap p)).1) bi hb x hx
  have hW := fun c => (interpolationWeightR_bounds (ieeeArith K t ht) hu1 _ hw c).2.2.2
  have hs := sum_interpolationWeight (interpolationWeightsR (ieeeArith K t ht) bi (g.toMap p) (bundleResolutionInvR (ieeeArith K t ht) g.r))
  constructor
  · refine le_trans (mul_le_mul_of_nonneg_right ?_ (pow_nonneg (sub_nonneg.2 hu1) _)) h1
    calc lo = ∑ c ∈ Finset.range (2 ^ d), interpolationWeight _ c * lo := by rw [← Finset.sum_mul, hs, one_mul]
      _ ≤ _ := Finset.sum_le_sum fun c _ => mul_le_mul_of_nonneg_left (hd _ _).1 (hW c)
  · refine le_trans h2 (mul_le_mul_of_nonneg_right ?_ (pow_nonneg (by linarith) _))
    calc _ ≤ ∑ c ∈ Finset.range (2 ^ d), interpolationWeight _ c * hi := Finset.sum_le_sum fun c _ => mul_le_mul_of_nonneg_left (hd _ _).2 (hW c)
      _ = hi := by rw [← Finset.sum_mul, hs, one_mul]

/-- **C83 (partial).** Interpolated samples of occupancy maps exceed 1 by that error at most. -/
theorem C83_occupancy_bilinear_partial {W E M : Type} [Inhabited (Occ W E)] (k : Kind d) (exp : Occ W E → Bool) (st : St k.backend (Occ W E)) (hR : MapReachable k exp st)
    (t : Nat) (ht : 1 ≤ t) (g : Geo K d) (dens : Multiset E → Pt K d → K) (hd : ∀ s q, 0 ≤ dens s q ∧ dens s q ≤ 1) (occ : M → Occ W E → K) (m : M)
    (ho : ∀ o, 0 ≤ occ m o ∧ occ m o ≤ 1) (p : Pt K d) (x : K)
    (hx : occSampleBilinearAtR (ieeeArith K t ht) g k.dyn dens occ p (some m) st = .ok (some x)) : 0 ≤ x ∧ x ≤ (1 + ((2 : K) ^ t)⁻¹) ^ (2 ^ d + 2 * d + 1) := by
  unfold occSampleBilinearAtR at hx
  cases hbi : toBundleIndexR (ieeeArith K t ht) g.r (g.toMap p) with
  | none => rw [hbi] at hx; simp at hx
  | some bi =>
    rw [hbi] at hx
    simp only [Except.ok.injEq] at hx
    have hu := (ieeeArith K t ht).T.nonneg
    have hu1 := unit_roundoff (K := K) t ht
    have hw := weightsR_mem t ht g.r (g.toMap p) bi hbi
    have hf : ∀ o, 0 ≤ occValueR (ieeeArith K t ht) dens (occ m) (g.toMap p) o ∧ occValueR (ieeeArith K t ht) dens (occ m) (g.toMap p) o ≤ 1 := by
      intro o
      unfold occValueR
      cases o.data with
      | none => exact ⟨le_rfl, zero_le_one⟩
      | some s =>
        have h0 := mul_nonneg (hd s (g.toMap p)).1 (ho o).1
        refine ⟨toBits_nonneg t h0, ?_⟩
        have := toBits_mono t ht _ _ (mul_le_one₀ (hd s (g.toMap p)).2 (ho o).1 (ho o).2)
        rwa [toBits_one t ht] at this
    by_cases hb : bi ∈ st.bundleIndices
    · obtain ⟨h1, h2⟩ := interpolation_bounds hR (ieeeArith K t ht) hu1 _ hw _ (fun s => (hf s).1) bi hb x hx
      have hW := fun c => (interpolationWeightR_bounds (ieeeArith K t ht) hu1 _ hw c).2.2.2
      have hs := sum_interpolationWeight (interpolationWeightsR (ieeeArith K t ht) bi (g.toMap p) (bundleResolutionInvR (ieeeArith K t ht) g.r))
      constructor
      · exact le_trans (mul_nonneg (Finset.sum_nonneg fun c _ => mul_nonneg (hW c) (hf _).1) (pow_nonneg (sub_nonneg.2 hu1) _)) h1
      · refine le_trans h2 (mul_le_of_le_one_left (pow_nonneg (by linarith) _) ?_)
        refine le_trans (Finset.sum_le_sum fun c _ => mul_le_of_le_one_right (hW c) (hf _).2) (le_of_eq hs)
    · rw [(sampleWithR_value hR _ _ _ bi x hx).2 hb]
      exact ⟨le_rfl, pow_nonneg (show (0 : K) ≤ 1 + ((2 : K) ^ t)⁻¹ by positivity) _⟩

/-- **C83.** An interpolated sample is the hat-function interpolation of the densities (all in `[0, 1]`) up to an absolute error: `2^d + 2 d + 1` roundings, and for each dimension two roundings and the
error of the position, which grows with the distance `β` (in bundles) from the origin of the map. -/
theorem C83_bilinear_error {D : Type} [Inhabited D] (k : Kind d) (exp : D → Bool) (st : St k.backend D) (hR : MapReachable k exp st) (t : Nat) (ht : 1 ≤ t) (h53 : t ≤ 53)
    (g : Geo K d) (hr : 0 < g.r) (hrt : toBits t g.r = g.r) (dens : D → Pt K d → K) (hd : ∀ s q, 0 ≤ dens s q ∧ dens s q ≤ 1) (p : Pt K d) (bi : Idx d)
    (hbi : toBundleIndexR (ieeeArith K t ht) g.r (g.toMap p) = some bi) (hin : Spec.InClosedBundle g.r bi (g.toMap p)) (β : K) (hβ : ∀ i, |g.toMap p i| / (g.r / 2) ≤ β)
    (hb : bi ∈ st.bundleIndices) (x : K) (hx : sampleBilinearAtR (ieeeArith K t ht) g k.dyn dens p st = some x) :
    ∃ s : Nat → D, (∀ c, c < 2 ^ d → st.binContent bi c = some (s c)) ∧
      |x - ∑ c ∈ Finset.range (2 ^ d), Spec.hat g.r c (generateIndex bi c) (g.toMap p) * dens (s c) (g.toMap p)| ≤
        ((1 + ((2 : K) ^ t)⁻¹) ^ (2 ^ d + 2 * d + 1) - 1) + d * (((1 + ((2 : K) ^ t)⁻¹) ^ 2 * (1 + ((2 : K) ^ 53)⁻¹) - 1) * β + 2 * ((2 : K) ^ t)⁻¹) := by
  refine ⟨fun c => st.abs.val c (generateIndex bi c), fun c hc => binContent_val hR hb hc, ?_⟩
  have hhalf := C77_half_exact t ht h53 g.r hrt
  unfold sampleBilinearAtR at hx
  rw [hbi, Option.bind_some] at hx
  have hu := (ieeeArith K t ht).T.nonneg
  have hu1 := unit_roundoff (K := K) t ht
  set w := interpolationWeightsR (ieeeArith K t ht) bi (g.toMap p) (bundleResolutionInvR (ieeeArith K t ht) g.r) with hwdef
  have hw : ∀ i, 0 ≤ w i ∧ w i ≤ 1 := weightsR_mem t ht g.r (g.toMap p) bi hbi
  set v := interpolationWeights bi (g.toMap p) (bundleResolutionInv g.r) with hvdef
  have hv : ∀ i, 0 ≤ v i ∧ v i ≤ 1 := by
    intro i
    have := frac_mem hr hin i
    rw [hvdef]
    unfold interpolationWeights
    split <;> constructor <;> linarith
  obtain ⟨h1, h2⟩ := interpolation_bounds hR (ieeeArith K t ht) hu1 w hw _ (fun s => (hd s (g.toMap p)).1) bi hb x hx
  set δ : K := ((1 + ((2 : K) ^ t)⁻¹) ^ 2 * (1 + ((2 : K) ^ 53)⁻¹) - 1) * β + 2 * ((2 : K) ^ t)⁻¹ with hδdef
  have hε : (1 + ((2 : K) ^ t)⁻¹) ^ 2 * (1 + ((2 : K) ^ 53)⁻¹) - 1 = (ieeeArith K t ht).eps := by
    show _ = (1 + ((2 : K) ^ t)⁻¹) * ((1 + ((2 : K) ^ t)⁻¹) * (1 + ((2 : K) ^ 53)⁻¹)) - 1
    ring
  have hwv : ∀ i, |w i - v i| ≤ δ := by
    intro i
    obtain ⟨a1, a2, a3⟩ := position_mem t ht g.r (g.toMap p) bi hbi i
    have a4 := pos_err (ieeeArith K t ht) hr hhalf (g.toMap p i)
    have a5 : |g.toMap p i * (2 / g.r)| ≤ β := by
      refine le_trans (le_of_eq ?_) (hβ i)
      rw [abs_mul, abs_of_pos (show 0 < 2 / g.r by positivity)]; field_simp
    have a6 := mul_le_mul_of_nonneg_left a5 (Arith.eps_nonneg (ieeeArith K t ht))
    have a7 : |toBits t (g.toMap p i * bundleResolutionInvR (ieeeArith K t ht) g.r) - g.toMap p i * (2 / g.r)| ≤ (ieeeArith K t ht).eps * β := le_trans a4 a6
    have b1 := abs_le.1 (toBits_err t (toBits t (g.toMap p i * bundleResolutionInvR (ieeeArith K t ht) g.r) - (bi i : K)))
    rw [abs_of_nonneg a2] at b1
    have hui : (0 : K) ≤ ((2 : K) ^ t)⁻¹ := by positivity
    have b2 : ((2 : K) ^ t)⁻¹ * (toBits t (g.toMap p i * bundleResolutionInvR (ieeeArith K t ht) g.r) - (bi i : K)) ≤ ((2 : K) ^ t)⁻¹ := mul_le_of_le_one_right hui a3.le
    obtain ⟨c1, c2⟩ := abs_le.1 a7
    have x0 : 0 ≤ toBits t (toBits t (g.toMap p i * bundleResolutionInvR (ieeeArith K t ht) g.r) - (bi i : K)) := toBits_nonneg t a2
    have x1 : toBits t (toBits t (g.toMap p i * bundleResolutionInvR (ieeeArith K t ht) g.r) - (bi i : K)) ≤ 1 := by
      have := toBits_mono t ht _ _ a3.le
      rwa [toBits_one t ht] at this
    have b3 := abs_le.1 (toBits_err t (1 - toBits t (toBits t (g.toMap p i * bundleResolutionInvR (ieeeArith K t ht) g.r) - (bi i : K))))
    rw [abs_of_nonneg (by linarith)] at b3
    have b4 : ((2 : K) ^ t)⁻¹ * (1 - toBits t (toBits t (g.toMap p i * bundleResolutionInvR (ieeeArith K t ht) g.r) - (bi i : K))) ≤ ((2 : K) ^ t)⁻¹ :=
      mul_le_of_le_one_right hui (by linarith)
    rw [hδdef, hε, hwdef, hvdef]
    unfold interpolationWeightsR interpolationWeights
    rw [bundleResolutionInv_eq']
    show |(if bi i % 2 ≠ 0 then toBits t (toBits t _ - toBits t _) else toBits t (1 - toBits t (toBits t _ - toBits t _))) - _| ≤ _
    rw [a1]
    split <;> rw [abs_le] <;> constructor <;> linarith
  have hV : |(∑ c ∈ Finset.range (2 ^ d), interpolationWeight w c * dens (st.abs.val c (generateIndex bi c)) (g.toMap p)) -
      ∑ c ∈ Finset.range (2 ^ d), Spec.hat g.r c (generateIndex bi c) (g.toMap p) * dens (st.abs.val c (generateIndex bi c)) (g.toMap p)| ≤ d * δ := by
    have := interpolation_lipschitz K δ d w v (fun c => dens (st.abs.val c (generateIndex bi c)) (g.toMap p)) hw hv hwv (fun c => hd _ _)
    simp only [← interpolationWeight_eq] at this
    have e : ∀ c, interpolationWeight v c = Spec.hat g.r c (generateIndex bi c) (g.toMap p) := fun c => C25_weight_is_hat hr bi (g.toMap p) hin c
    simp only [e] at this
    exact this
  have hW := fun c => (interpolationWeightR_bounds (ieeeArith K t ht) hu1 w hw c).2.2.2
  have hs := sum_interpolationWeight w
  have hV0 : 0 ≤ ∑ c ∈ Finset.range (2 ^ d), interpolationWeight w c * dens (st.abs.val c (generateIndex bi c)) (g.toMap p) :=
    Finset.sum_nonneg fun c _ => mul_nonneg (hW c) (hd _ _).1
  have hV1 : (∑ c ∈ Finset.range (2 ^ d), interpolationWeight w c * dens (st.abs.val c (generateIndex bi c)) (g.toMap p)) ≤ 1 :=
    le_trans (Finset.sum_le_sum fun c _ => mul_le_of_le_one_right (hW c) (hd _ _).2) (le_of_eq hs)
  have hut : (ieeeArith K t ht).T.u = ((2 : K) ^ t)⁻¹ := rfl
  rw [hut] at h1 h2 hu hu1
  generalize (∑ c ∈ Finset.range (2 ^ d), interpolationWeight w c * dens (st.abs.val c (generateIndex bi c)) (g.toMap p)) = V at *
  generalize (∑ c ∈ Finset.range (2 ^ d), Spec.hat g.r c (generateIndex bi c) (g.toMap p) * dens (st.abs.val c (generateIndex bi c)) (g.toMap p)) = H at *
  generalize ((2 : K) ^ t)⁻¹ = u at *
  have p1 := one_add_mul_le_pow (show (-2 : K) ≤ u by linarith) (2 ^ d + 2 * d + 1)
  have p2 := one_add_mul_le_pow (show (-2 : K) ≤ -u by linarith) (2 ^ d + 2 * d + 1)
  rw [← sub_eq_add_neg] at p2
  have p3 : (1 : K) ≤ (1 + u) ^ (2 ^ d + 2 * d + 1) := one_le_pow₀ (by linarith)
  generalize (1 + u) ^ (2 ^ d + 2 * d + 1) = P at *
  generalize (1 - u) ^ (2 ^ d + 2 * d + 1) = Q at *
  have hxV : |x - V| ≤ P - 1 := by
    rw [abs_le]
    constructor <;> nlinarith
  calc |x - H| ≤ |x - V| + |V - H| := by
        have := abs_add_le (x - V) (V - H)
        rwa [sub_add_sub_cancel] at this
    _ ≤ _ := add_le_add hxV hV

/-- **C83.** The error in numbers: below 1/2000 for maps of floats in two dimensions within 1000 bundles of the origin, below 2e-9 for maps of doubles in three dimensions within a million bundles. -/
theorem C83_error_numbers :
    ((1 + ((2 : K) ^ 24)⁻¹) ^ (2 ^ 2 + 2 * 2 + 1) - 1) + (2 : Nat) * (((1 + ((2 : K) ^ 24)⁻¹) ^ 2 * (1 + ((2 : K) ^ 53)⁻¹) - 1) * 1000 + 2 * ((2 : K) ^ 24)⁻¹) < 1 / 2000 ∧
    ((1 + ((2 : K) ^ 53)⁻¹) ^ (2 ^ 3 + 2 * 3 + 1) - 1) + (3 : Nat) * (((1 + ((2 : K) ^ 53)⁻¹) ^ 2 * (1 + ((2 : K) ^ 53)⁻¹) - 1) * 1000000 + 2 * ((2 : K) ^ 53)⁻¹) < 2 / 1000000000 := by
  constructor <;> norm_num

omit [IsStrictOrderedRing K] in
/-- A map with a single point. -/
theorem one_point_runs (k : Kind d) (R : Arith K) (g : Geo K d) (exp : Multiset (Pt K d) → Bool) (p : Pt K d) (hn : g.normal p = true) (bi : Idx d)
    (hbi : toBundleIndexR R g.r (g.toMap p) = some bi) (hk : (k.init (Multiset (Pt K d))).abs.Good bi) (hv : (k.init (Multiset (Pt K d))).abs.valid k.dyn bi = true) :
    ∃ st, gridRunR R g k.dyn exp [.insert id [p]] (k.init _) = some st ∧ MapReachable k exp st ∧ bi ∈ st.bundleIndices ∧ st.abs.Good bi := by
  obtain ⟨st, hst⟩ := gridInsertR_total k.lawful R g k.dyn id [p] (k.init _) k.init_rinv
    (by
      intro q hq _
      rw [List.mem_singleton] at hq
      subst hq
      exact Option.isSome_of_eq_some hbi)
    (by
      intro q hq
      have hq' : q = g.toMap p := by
        have := (List.mem_filter.1 hq).1
        simpa [hn] using this
      rw [hq', idxR_of_some hbi]
      exact hk)
  have hrun : gridRunR R g k.dyn exp [.insert id [p]] (k.init _) = some st := by simp only [gridRunR, gridStepR, hst]; rfl
  have hre := gridR_reachable R g k exp _ _ _ .init hrun
  obtain ⟨hI, hkeep, _, h4⟩ := gridRunR_spec k.lawful R g k.dyn exp _ _ st k.init_rinv hrun
  refine ⟨st, hrun, hre, ?_, (hkeep.good bi).2 hk⟩
  have := (h4 (g.toMap p) (by
    simp only [accOpsR, accListR, List.append_nil, List.map_cons, List.map_nil, id_eq, List.filter_cons, hn, if_true, List.filter_nil, idxR_of_some hbi, hv]
    exact List.mem_singleton.2 rfl)).1
  rw [idxR_of_some hbi, mem_allocated_iff] at this
  exact (mem_bundleIndices k.lawful st hI.inv bi).2 this

end

/-! ### C83, maps of floats and of doubles -/

def twoGeo : Geo ℚ 2 := { r := 2, toMap := id, normal := fun _ => true }

abbrev float64 : Arith ℚ := ieeeArith ℚ 53 (by decide)

/-- the floats next to 1/5 and 4/5 -/
def floatPoint : Pt ℚ 2 := ![13421773 / 67108864, 13421773 / 16777216]

/-- the doubles next to 1/3 and 5/6 -/
def doublePoint : Pt ℚ 2 := ![6004799503160661 / 18014398509481984, 7505999378950827 / 9007199254740992]

example : (toBits 24 (1 / 5 : ℚ) = floatPoint 0 ∧ toBits 24 (4 / 5 : ℚ) = floatPoint 1) ∧ toBits 53 (1 / 3 : ℚ) = doublePoint 0 ∧ toBits 53 (5 / 6 : ℚ) = doublePoint 1 := by decide +kernel

theorem floatPoint_index : toBundleIndexR float32 twoGeo.r floatPoint = some ![0, 0] := by decide +kernel
theorem doublePoint_index : toBundleIndexR float64 twoGeo.r doublePoint = some ![0, 0] := by decide +kernel

theorem dyn_origin (f : Nat → Nat) (f' : Nat) : ((Kind.dynamic (d := 2) f f').init (Multiset (Pt ℚ 2))).abs.Good ![0, 0] :=
  dynamic_good _ f f' _ (by unfold Spec.InRange; decide)

theorem bilinear_one (R : Arith ℚ) (f : Nat → Nat) (f' : Nat) (exp : Multiset (Pt ℚ 2) → Bool) (p : Pt ℚ 2) (hbi : toBundleIndexR R twoGeo.r p = some ![0, 0]) :
    ∃ st, gridRunR R twoGeo true exp [.insert id [p]] ((Kind.dynamic (d := 2) f f').init _) = some st ∧ MapReachable (Kind.dynamic f f') exp st ∧ ![0, 0] ∈ st.bundleIndices ∧
      sampleBilinearAtR R twoGeo true (fun _ _ => 1) p st =
        some (sumR R.T (fun c => interpolationWeightR R (interpolationWeightsR R ![0, 0] p (bundleResolutionInvR R twoGeo.r)) c * 1) 4) := by
  obtain ⟨st, h1, h2, h3, h4⟩ := one_point_runs (Kind.dynamic f f') R twoGeo exp p rfl ![0, 0] hbi (dyn_origin f f') rfl
  refine ⟨st, h1, h2, h3, ?_⟩
  obtain ⟨x, hx⟩ := (sampleWithR_spec (Kind.dynamic f f').lawful R true (interpolationWeightR R (interpolationWeightsR R ![0, 0] p (bundleResolutionInvR R twoGeo.r))) (fun _ => 1) ![0, 0] st h2.spec.1).2 h4
  have := (sampleWithR_value h2 R _ _ ![0, 0] x hx).1 h3
  unfold sampleBilinearAtR
  rw [show twoGeo.toMap p = p from rfl, hbi, Option.bind_some]
  exact hx.trans (congrArg some this)

/-- **C83 (refuted part).** Interpolation between densities that are all 1 yields more than 1: in a map of floats with resolution 2, at the floats next to (1/5, 4/5), it yields `1 + 2^-23`. -/
theorem C83_bilinear_float_refuted (f : Nat → Nat) (f' : Nat) (exp : Multiset (Pt ℚ 2) → Bool) :
    ∃ st, gridRunR float32 twoGeo true exp [.insert id [floatPoint]] ((Kind.dynamic (d := 2) f f').init _) = some st ∧ MapReachable (Kind.dynamic f f') exp st ∧
      sampleBilinearAtR float32 twoGeo true (fun _ _ => 1) floatPoint st = some (1 + 1 / 2 ^ 23) := by
  obtain ⟨st, h1, h2, _, h3⟩ := bilinear_one float32 f f' exp floatPoint floatPoint_index
  exact ⟨st, h1, h2, h3.trans (congrArg some (by decide +kernel))⟩

/-- **C83 (refuted part).** The same for doubles next to (1/3, 5/6): `1 + 2^-52`. -/
theorem C83_bilinear_double_refuted (f : Nat → Nat) (f' : Nat) (exp : Multiset (Pt ℚ 2) → Bool) :
    ∃ st, gridRunR float64 twoGeo true exp [.insert id [doublePoint]] ((Kind.dynamic (d := 2) f f').init _) = some st ∧ MapReachable (Kind.dynamic f f') exp st ∧
      sampleBilinearAtR float64 twoGeo true (fun _ _ => 1) doublePoint st = some (1 + 1 / 2 ^ 52) := by
  obtain ⟨st, h1, h2, _, h3⟩ := bilinear_one float64 f f' exp doublePoint doublePoint_index
  exact ⟨st, h1, h2, h3.trans (congrArg some (by decide +kernel))⟩

/-- Non-vacuity of `C83_bilinear_error` and `C83_bilinear_bounds_partial`: that map and that point meet their hypotheses. -/
example (f : Nat → Nat) (f' : Nat) (exp : Multiset (Pt ℚ 2) → Bool) :
    ∃ (st : St (Kind.dynamic (d := 2) f f').backend (Multiset (Pt ℚ 2))) (x : ℚ), MapReachable (Kind.dynamic f f') exp st ∧ ![0, 0] ∈ st.bundleIndices ∧
      toBundleIndexR float32 twoGeo.r (twoGeo.toMap floatPoint) = some ![0, 0] ∧ toBits 24 twoGeo.r = twoGeo.r ∧
      Spec.InClosedBundle twoGeo.r ![0, 0] (twoGeo.toMap floatPoint) ∧ (∀ i, |twoGeo.toMap floatPoint i| / (twoGeo.r / 2) ≤ 1) ∧
      sampleBilinearAtR float32 twoGeo true (fun _ _ => 1) floatPoint st = some x := by
  obtain ⟨st, _, h2, h3, h4⟩ := bilinear_one float32 f f' exp floatPoint floatPoint_index
  refine ⟨st, _, h2, h3, floatPoint_index, by decide +kernel, ?_, ?_, h4⟩
  · intro i; fin_cases i <;> constructor <;> norm_num [twoGeo, floatPoint]
  · intro i; fin_cases i <;> norm_num [twoGeo, floatPoint, abs_le]

/-- Non-vacuity of `C83_nearest_unit` and `C83_nearest_error`: sampling that map without interpolation. -/
example (f : Nat → Nat) (f' : Nat) (exp : Multiset (Pt ℚ 2) → Bool) :
    ∃ (st : St (Kind.dynamic (d := 2) f f').backend (Multiset (Pt ℚ 2))) (x : ℚ), MapReachable (Kind.dynamic f f') exp st ∧ ![0, 0] ∈ st.bundleIndices ∧
      sampleNNAtR float32 twoGeo true (fun _ _ => 1) floatPoint st = some x := by
  obtain ⟨st, _, h2, h3, h4⟩ := one_point_runs (Kind.dynamic f f') float32 twoGeo exp floatPoint rfl ![0, 0] floatPoint_index (dyn_origin f f') rfl
  obtain ⟨x, hx⟩ := (sampleWithR_spec (Kind.dynamic f f').lawful float32 true (fun _ => divCountR float32 2) (fun _ => 1) ![0, 0] st h2.spec.1).2 h4
  refine ⟨st, x, h2, h3, ?_⟩
  unfold sampleNNAtR
  rw [show twoGeo.toMap floatPoint = floatPoint from rfl, floatPoint_index, Option.bind_some]
  exact hx

end Ndt
