import Verif.Proofs.Sampling
import Verif.Props.Gridmap
import Verif.Spec.Interp

/-! Property theorems C22 (maps), C24–C26: sampling. -/

namespace Ndt
open St Abs

/-! ### C25 -/
section C25
variable {K : Type} [Field K] [LinearOrder K] [IsStrictOrderedRing K] {d : Nat}

/-- the `2^d` interpolation weights of bundle `b` at the point `p` -/
def weightAt (r : K) (b : Idx d) (p : Pt K d) (c : Nat) : K := interpolationWeight (interpolationWeights b p (bundleResolutionInv r)) c

omit [LinearOrder K] [IsStrictOrderedRing K] in
theorem bundleResolutionInv_eq' (r : K) : bundleResolutionInv r = 2 / r := by
  unfold bundleResolutionInv bundleResolution
  rw [one_div, mul_inv, one_div, inv_inv, div_eq_mul_inv]

theorem frac_mem {r : K} (hr : 0 < r) {b : Idx d} {p : Pt K d} (hp : Spec.InClosedBundle r b p) (i : Fin d) :
    0 ≤ p i * bundleResolutionInv r - (b i : K) ∧ p i * bundleResolutionInv r - (b i : K) ≤ 1 := by
  rw [bundleResolutionInv_eq']
  obtain ⟨h1, h2⟩ := hp i
  have e : p i * (2 / r) = p i / (r / 2) := by field_simp
  rw [e]
  have h3 := (le_div_iff₀ (half_pos hr)).2 h1
  have h4 := (div_le_iff₀ (half_pos hr)).2 h2
  constructor <;> linarith

theorem factor_mem {r : K} (hr : 0 < r) {b : Idx d} {p : Pt K d} (hp : Spec.InClosedBundle r b p) (i : Fin d) (c : Nat) :
    0 ≤ (if c.testBit i.1 then interpolationWeights b p (bundleResolutionInv r) i else 1 - interpolationWeights b p (bundleResolutionInv r) i) ∧
    (if c.testBit i.1 then interpolationWeights b p (bundleResolutionInv r) i else 1 - interpolationWeights b p (bundleResolutionInv r) i) ≤ 1 := by
  obtain ⟨h1, h2⟩ := frac_mem hr hp i
  unfold interpolationWeights
  split <;> split <;> constructor <;> linarith

/-- **C25** (partition of unity). For every point of the (closed) bundle, all weights are in `[0, 1]` and they sum to 1. -/
theorem C25_partition_of_unity {r : K} (hr : 0 < r) (b : Idx d) (p : Pt K d) (hp : Spec.InClosedBundle r b p) :
    (∀ c, 0 ≤ weightAt r b p c ∧ weightAt r b p c ≤ 1) ∧ (∑ c ∈ Finset.range (2 ^ d), weightAt r b p c) = 1 := by
  refine ⟨fun c => ?_, sum_interpolationWeight _⟩
  unfold weightAt
  rw [interpolationWeight_eq]
  exact ⟨Finset.prod_nonneg fun i _ => (factor_mem hr hp i c).1, Finset.prod_le_one (fun i _ => (factor_mem hr hp i c).1) fun i _ => (factor_mem hr hp i c).2⟩

/-- **C25** (geometry). The weight of bin `c` is the hat function of the cell that the bin belongs to: 1 at the centre of the cell, 0 at its border. -/
theorem C25_weight_is_hat {r : K} (hr : 0 < r) (b : Idx d) (p : Pt K d) (hp : Spec.InClosedBundle r b p) (c : Nat) :
    weightAt r b p c = Spec.hat r c (generateIndex b c) p := by
  unfold weightAt Spec.hat
  rw [interpolationWeight_eq]
  refine Finset.prod_congr rfl fun i _ => ?_
  obtain ⟨h1, h2⟩ := frac_mem hr hp i
  have hg : generateIndex b c i = if c.testBit i.1 then (b i + 1) / 2 else b i / 2 := getIndexInner_eq _ _ _
  have hx : p i = (p i * bundleResolutionInv r) * (r / 2) := by
    rw [bundleResolutionInv_eq']; field_simp
  have hdist : |p i - Spec.centre r c (generateIndex b c) i| / (r / 2) =
      |p i * bundleResolutionInv r - (2 * (generateIndex b c i : K) + 1 - 2 * Spec.shift K c i.1)| := by
    rw [show |p i - Spec.centre r c (generateIndex b c) i| / (r / 2) = |(p i - Spec.centre r c (generateIndex b c) i) / (r / 2)| by
      rw [abs_div, abs_of_pos (half_pos hr)]]
    congr 1
    unfold Spec.centre
    conv_lhs => rw [hx]
    field_simp
  rw [hdist, hg]
  unfold interpolationWeights Spec.shift
  generalize p i * bundleResolutionInv r = x at *
  rcases Int.emod_two_eq_zero_or_one (b i) with h | h
  · obtain ⟨q, hq⟩ : ∃ q, b i = 2 * q := ⟨b i / 2, by omega⟩
    have e1 : (b i + 1) / 2 = q := by omega
    have e2 : b i / 2 = q := by omega
    have e3 : ((b i : Int) : K) = 2 * (q : K) := by rw [hq]; push_cast; ring
    rw [e1, e2, h]
    rw [e3] at h1 h2 ⊢
    cases c.testBit i.1
    · simp only [Bool.false_eq_true, if_false, ne_eq, not_true_eq_false]
      rw [abs_of_nonpos (by linarith), max_eq_right (by linarith)]; ring
    · simp only [if_true, ne_eq, not_true_eq_false, if_false]
      rw [abs_of_nonneg (by linarith), max_eq_right (by linarith)]; ring
  · obtain ⟨q, hq⟩ : ∃ q, b i = 2 * q + 1 := ⟨b i / 2, by omega⟩
    have e1 : (b i + 1) / 2 = q + 1 := by omega
    have e2 : b i / 2 = q := by omega
    have e3 : ((b i : Int) : K) = 2 * (q : K) + 1 := by rw [hq]; push_cast; ring
    rw [e1, e2, h]
    rw [e3] at h1 h2 ⊢
    cases c.testBit i.1
    · simp only [Bool.false_eq_true, if_false, ne_eq, one_ne_zero, not_false_eq_true, if_true]
      rw [abs_of_nonneg (by linarith), max_eq_right (by linarith)]; ring
    · simp only [if_true, ne_eq, one_ne_zero, not_false_eq_true]
      push_cast
      rw [abs_of_nonpos (by linarith), max_eq_right (by linarith)]; ring

/-- the interpolated value of bundle `b` at `p`, for given values of the distributions -/
def interpolate (r : K) (f : Nat → Idx d → K) (b : Idx d) (p : Pt K d) : K :=
  ∑ c ∈ Finset.range (2 ^ d), weightAt r b p c * f c (generateIndex b c)

/-- **C25** (bounds). The interpolated value lies between any bounds of the bin values. -/
theorem C25_between {r : K} (hr : 0 < r) (b : Idx d) (p : Pt K d) (hp : Spec.InClosedBundle r b p) (f : Nat → Idx d → K) (lo hi : K)
    (hf : ∀ c, c < 2 ^ d → lo ≤ f c (generateIndex b c) ∧ f c (generateIndex b c) ≤ hi) :
    lo ≤ interpolate r f b p ∧ interpolate r f b p ≤ hi := by
  obtain ⟨h1, h2⟩ := C25_partition_of_unity hr b p hp
  unfold interpolate
  constructor
  · calc lo = ∑ c ∈ Finset.range (2 ^ d), weightAt r b p c * lo := by rw [← Finset.sum_mul, h2, one_mul]
      _ ≤ _ := Finset.sum_le_sum fun c hc => mul_le_mul_of_nonneg_left (hf c (Finset.mem_range.1 hc)).1 (h1 c).1
  · calc _ ≤ ∑ c ∈ Finset.range (2 ^ d), weightAt r b p c * hi :=
        Finset.sum_le_sum fun c hc => mul_le_mul_of_nonneg_left (hf c (Finset.mem_range.1 hc)).2 (h1 c).1
      _ = hi := by rw [← Finset.sum_mul, h2, one_mul]

/-- Non-vacuity: an interior point of a bundle of a 2d map with negative index; its four weights are 3/8, 1/8, 3/8, 1/8. -/
example : Spec.InClosedBundle (2 : ℚ) ![-1, 2] ![-3/4, 5/2] ∧
    (List.range 4).map (weightAt (2 : ℚ) ![-1, 2] ![-3/4, 5/2]) = [3/8, 1/8, 3/8, 1/8] := by
  constructor
  · intro i; fin_cases i <;> norm_num
  · simp only [weightAt, interpolationWeight_eq, List.range, List.range.loop, List.map_cons, List.map_nil, Fin.prod_univ_two, interpolationWeights, bundleResolutionInv, bundleResolution]
    norm_num [Nat.testBit, Nat.shiftRight]

/-! ### C26 -/

/-- **C26** (border weights). On the common face of the bundles `b` and `b + e_i`, a distribution that both bundles share gets the same weight from both, and a distribution that only one of
them has gets weight 0. -/
theorem C26_border_weights {r : K} (hr : 0 < r) (b b' : Idx d) (p : Pt K d) (hp : Spec.InClosedBundle r b p) (hp' : Spec.InClosedBundle r b' p) (c : Nat) :
    (generateIndex b c = generateIndex b' c → weightAt r b p c = weightAt r b' p c) ∧
    (generateIndex b c ≠ generateIndex b' c → weightAt r b p c = 0 ∧ weightAt r b' p c = 0) := by
  have key : ∀ b b' : Idx d, Spec.InClosedBundle r b p → Spec.InClosedBundle r b' p → generateIndex b c ≠ generateIndex b' c → weightAt r b p c = 0 := by
    intro b b' hp hp' hne
    rw [C25_weight_is_hat hr b p hp]
    obtain ⟨i, hi⟩ := Function.ne_iff.1 hne
    refine Finset.prod_eq_zero (Finset.mem_univ i) ?_
    have hg : ∀ b : Idx d, generateIndex b c i = if c.testBit i.1 then (b i + 1) / 2 else b i / 2 := fun b => getIndexInner_eq _ _ _
    rw [hg, hg] at hi
    obtain ⟨h1, h2⟩ := hp i
    obtain ⟨h3, h4⟩ := hp' i
    have h5 : (b i : K) ≤ (b' i : K) + 1 := le_of_mul_le_mul_right (h1.trans h4) (half_pos hr)
    have h6 : (b' i : K) ≤ (b i : K) + 1 := le_of_mul_le_mul_right (h3.trans h2) (half_pos hr)
    have h7 : b i ≤ b' i + 1 := by exact_mod_cast h5
    have h8 : b' i ≤ b i + 1 := by exact_mod_cast h6
    have hneq : b i ≠ b' i := by intro e; rw [e] at hi; exact hi rfl
    have e : Spec.centre r c (generateIndex b c) i = (2 * (generateIndex b c i : K) + 1 - 2 * Spec.shift K c i.1) * (r / 2) := by
      unfold Spec.centre; ring
    rw [max_eq_left]
    rw [e, hg]
    have hle : ∀ y : K, r / 2 ≤ y → 1 - y / (r / 2) ≤ 0 := by
      intro y hy
      have := (one_le_div (half_pos hr)).2 hy
      linarith
    apply hle
    -- the face is at distance r/2 of the centre
    rcases (by omega : b' i = b i + 1 ∨ b' i = b i - 1) with h | h
    · have hpi : p i = ((b i : K) + 1) * (r / 2) := by
        rw [h] at h3; push_cast at h3; linarith
      rw [hpi, ← sub_mul, abs_mul, abs_of_pos (half_pos hr)]
      refine le_mul_of_one_le_left (half_pos hr).le ?_
      unfold Spec.shift
      split at hi <;> rename_i hc
      · obtain ⟨q, hq⟩ : ∃ q, b i = 2 * q := ⟨b i / 2, by omega⟩
        have e1 : (b i + 1) / 2 = q := by omega
        rw [if_pos hc, if_pos hc, e1, hq]
        push_cast
        rw [abs_of_nonneg (by linarith)]; linarith
      · obtain ⟨q, hq⟩ : ∃ q, b i = 2 * q + 1 := ⟨b i / 2, by omega⟩
        have e1 : b i / 2 = q := by omega
        rw [if_neg hc, if_neg hc, e1, hq]
        push_cast
        rw [abs_of_nonneg (by linarith)]; linarith
    · have hpi : p i = (b i : K) * (r / 2) := by
        rw [h] at h4; push_cast at h4; linarith
      rw [hpi, ← sub_mul, abs_mul, abs_of_pos (half_pos hr)]
      refine le_mul_of_one_le_left (half_pos hr).le ?_
      unfold Spec.shift
      split at hi <;> rename_i hc
      · obtain ⟨q, hq⟩ : ∃ q, b i = 2 * q + 1 := ⟨b i / 2, by omega⟩
        have e1 : (b i + 1) / 2 = q + 1 := by omega
        rw [if_pos hc, if_pos hc, e1, hq]
        push_cast
        rw [abs_of_nonpos (by linarith)]; linarith
      · obtain ⟨q, hq⟩ : ∃ q, b i = 2 * q := ⟨b i / 2, by omega⟩
        have e1 : b i / 2 = q := by omega
        rw [if_neg hc, if_neg hc, e1, hq]
        push_cast
        rw [abs_of_nonpos (by linarith)]; linarith
  refine ⟨fun h => ?_, fun h => ⟨key b b' hp hp' h, key b' b hp' hp (Ne.symm h)⟩⟩
  rw [C25_weight_is_hat hr b p hp, C25_weight_is_hat hr b' p hp', h]

/-- **C26.** At every point that lies in two closed bundles (in particular on the common face of two neighbours), both bundles interpolate the same value, whatever the
distributions. -/
theorem C26_interpolation_continuous {r : K} (hr : 0 < r) (f : Nat → Idx d → K) (b b' : Idx d) (p : Pt K d)
    (hp : Spec.InClosedBundle r b p) (hp' : Spec.InClosedBundle r b' p) : interpolate r f b p = interpolate r f b' p := by
  unfold interpolate
  refine Finset.sum_congr rfl fun c _ => ?_
  obtain ⟨h1, h2⟩ := C26_border_weights hr b b' p hp hp' c
  by_cases h : generateIndex b c = generateIndex b' c
  · rw [h1 h, h]
  · rw [(h2 h).1, (h2 h).2, zero_mul, zero_mul]

/-- Non-vacuity: the common face of two neighbouring bundles, one distribution shared and one not. -/
example : Spec.InClosedBundle (2 : ℚ) ![-1, 2] ![0, 5/2] ∧ Spec.InClosedBundle (2 : ℚ) ![0, 2] ![0, 5/2] ∧
    generateIndex ![-1, 2] 1 = generateIndex ![0, 2] 1 ∧ generateIndex ![-1, 2] 0 ≠ generateIndex ![0, 2] 0 := by
  refine ⟨?_, ?_, by decide, by decide⟩ <;> (intro i; fin_cases i <;> norm_num)

end C25

/-! ### C24 -/
section C24
variable {K : Type} [Field K] [LinearOrder K] [IsStrictOrderedRing K] [FloorRing K] {d : Nat}

theorem toBundleIndex_of_inBundle {r : K} (hr : 0 < r) {p : Pt K d} {b : Idx d} (h : Spec.InBundle r b p) : toBundleIndex r p = b :=
  (C01_bundle_contains_point hr p b).2 h

open scoped Classical in
/-- the accepted points that lie in the same cell of grid `c` as `q` -/
noncomputable def cellMates (r : K) (acc : Multiset (Pt K d)) (c : Nat) (q : Pt K d) : Multiset (Pt K d) :=
  acc.filter fun a => ∃ i : Idx d, Spec.InCell r c i q ∧ Spec.InCell r c i a

open scoped Classical in
theorem val_eq_cellMates (k : Kind d) (g : Geo K d) (hr : 0 < g.r) (exp : Multiset (Pt K d) → Bool) (ops : List (GridOp K d))
    (st : St k.backend (Multiset (Pt K d))) (h : gridRun g k.dyn exp ops (k.init _) = some st) (c : Nat) (hc : c < 2 ^ d) (q : Pt K d) :
    st.abs.val c (generateIndex (toBundleIndex g.r q) c) = cellMates g.r (Spec.accepted g k ops) c q := by
  have h1 := C10_contents_exact k g hr exp ops st h c hc (generateIndex (toBundleIndex g.r q) c)
  refine Eq.trans (show _ = (st.content c _).getD 0 from rfl) (h1.trans ?_)
  unfold cellMates
  refine Multiset.filter_congr fun a _ => ?_
  constructor
  · exact fun ha => ⟨_, (C01_point_in_selected_cell hr q c _).1 rfl, ha⟩
  · rintro ⟨i, hi, ha⟩
    have := (C01_point_in_selected_cell hr q c i).2 hi
    rw [this]; exact ha

/-- **C24** (mean). After any history on any NDT map, sampling at `p` yields: the arithmetic mean, over the `2^d` grids, of the densities of the accepted points that share the grid's cell with `p`,
if `p` lies in the region of the map and in an allocated bundle `b`; 0 otherwise. -/
theorem C24_sample_is_mean (k : Kind d) (g : Geo K d) (hr : 0 < g.r) (exp : Multiset (Pt K d) → Bool) (ops : List (GridOp K d))
    (st : St k.backend (Multiset (Pt K d))) (h : gridRun g k.dyn exp ops (k.init _) = some st)
    (dens : Multiset (Pt K d) → Pt K d → K) (p : Pt K d) (b : Idx d) (hb : Spec.InBundle g.r b (g.toMap p)) (x : K)
    (hx : sampleNNAt g k.dyn dens p st = some x) :
    (Spec.Region g.r k (g.toMap p) ∧ b ∈ st.bundleIndices →
      x = (∑ c ∈ Finset.range (2 ^ d), dens (cellMates g.r (Spec.accepted g k ops) c (g.toMap p)) (g.toMap p)) / 2 ^ d) ∧
    (¬ (Spec.Region g.r k (g.toMap p) ∧ b ∈ st.bundleIndices) → x = 0) := by
  have hre : Reachable k g exp st := ⟨ops, h⟩
  have hI := hre.rinv
  have hbi := toBundleIndex_of_inBundle hr hb
  unfold sampleNNAt sampleNN at hx
  obtain ⟨h1, h2⟩ := (sampleWith_spec k.lawful k.dyn _ _ _ st hI).1 x hx
  have hval : st.valid k.dyn (toBundleIndex g.r (g.toMap p)) = true ↔ Spec.Region g.r k (g.toMap p) := by
    rw [← valid_iff_region (Multiset (Pt K d)) g.r hr k]
    show st.abs.valid _ _ = true ↔ _
    rw [hre.keeps.valid]
  have hal : toBundleIndex g.r (g.toMap p) ∈ st.abs.allocated ↔ b ∈ st.bundleIndices := by
    rw [hbi, mem_allocated_iff, mem_bundleIndices k.lawful st hI.inv]
  rw [hval, hal] at h1 h2
  refine ⟨fun hh => ?_, h2⟩
  rw [h1 hh, div_eq_inv_mul, Finset.mul_sum]
  refine Finset.sum_congr rfl fun c hc => ?_
  rw [val_eq_cellMates k g hr exp ops st h c (Finset.mem_range.1 hc), divCount_eq, one_div]

/-- the mean of values in `[0, 1]` is in `[0, 1]` -/
theorem mean_mem (f : Nat → K) (n : Nat) (hf : ∀ c, 0 ≤ f c ∧ f c ≤ 1) :
    0 ≤ (∑ c ∈ Finset.range (2 ^ n), f c) / 2 ^ n ∧ (∑ c ∈ Finset.range (2 ^ n), f c) / 2 ^ n ≤ 1 := by
  have hp : (0 : K) < 2 ^ n := by positivity
  refine ⟨div_nonneg (Finset.sum_nonneg fun c _ => (hf c).1) hp.le, ?_⟩
  rw [div_le_one hp]
  calc (∑ c ∈ Finset.range (2 ^ n), f c) ≤ ∑ _c ∈ Finset.range (2 ^ n), (1 : K) := Finset.sum_le_sum fun c _ => (hf c).2
    _ = 2 ^ n := by simp

/-- **C24** (range). If all densities are in `[0, 1]`, so is the sample. -/
theorem C24_sample_in_unit_interval (k : Kind d) (g : Geo K d) (hr : 0 < g.r) (exp : Multiset (Pt K d) → Bool) (ops : List (GridOp K d))
    (st : St k.backend (Multiset (Pt K d))) (h : gridRun g k.dyn exp ops (k.init _) = some st)
    (dens : Multiset (Pt K d) → Pt K d → K) (hd : ∀ s q, 0 ≤ dens s q ∧ dens s q ≤ 1) (p : Pt K d) (x : K)
    (hx : sampleNNAt g k.dyn dens p st = some x) : 0 ≤ x ∧ x ≤ 1 := by
  have hb := (C01_bundle_contains_point hr (g.toMap p) (toBundleIndex g.r (g.toMap p))).1 rfl
  obtain ⟨h1, h2⟩ := C24_sample_is_mean k g hr exp ops st h dens p _ hb x hx
  by_cases hh : Spec.Region g.r k (g.toMap p) ∧ toBundleIndex g.r (g.toMap p) ∈ st.bundleIndices
  · rw [h1 hh]; exact mean_mem (fun c => dens _ _) d fun c => hd _ _
  · rw [h2 hh]; exact ⟨le_refl _, zero_le_one⟩

/-- **C24** (static maps: always defined). Sampling a static map never accesses memory out of bounds, and yields 0 outside of its region. -/
theorem C24_static_total (size : Fin d → Nat) (lo : Idx d) (g : Geo K d) (hr : 0 < g.r) (exp : Multiset (Pt K d) → Bool) (ops : List (GridOp K d))
    (st : St (Kind.static size lo).backend (Multiset (Pt K d))) (h : gridRun g false exp ops ((Kind.static size lo).init _) = some st)
    (dens : Multiset (Pt K d) → Pt K d → K) (p : Pt K d) :
    (∃ x, sampleNNAt g false dens p st = some x) ∧ (¬ Spec.Region g.r (.static size lo) (g.toMap p) → sampleNNAt g false dens p st = some 0) := by
  have hre : Reachable (.static size lo) g exp st := ⟨ops, h⟩
  have hv : ∀ i, st.valid false i = ((Kind.static size lo).init (Multiset (Pt K d))).abs.valid false i := fun i => hre.keeps.valid i
  unfold sampleNNAt sampleNN
  refine ⟨?_, ?_⟩
  · by_cases hval : st.valid false (toBundleIndex g.r (g.toMap p)) = true
    · refine (sampleWith_spec (arrayLawful d) false _ _ _ st hre.rinv).2 ?_
      rw [hv] at hval
      exact (hre.keeps.good _).2 (Kind.static_good size lo _ hval)
    · unfold sampleWith; rw [if_neg hval]; exact ⟨0, rfl⟩
  · intro hreg
    unfold sampleWith
    rw [if_neg]
    rw [hv]
    exact fun e => hreg ((valid_iff_region (Multiset (Pt K d)) g.r hr (.static size lo) _).1 e)

/-- **C24 / C25** (bilinear). After any history, bilinear sampling is the hat-function interpolation of the densities of the accepted points sharing a cell with `p`. -/
theorem C25_bilinear_sample (k : Kind d) (g : Geo K d) (hr : 0 < g.r) (exp : Multiset (Pt K d) → Bool) (ops : List (GridOp K d))
    (st : St k.backend (Multiset (Pt K d))) (h : gridRun g k.dyn exp ops (k.init _) = some st)
    (dens : Multiset (Pt K d) → Pt K d → K) (p : Pt K d) (b : Idx d) (hb : Spec.InBundle g.r b (g.toMap p)) (x : K)
    (hx : sampleBilinearAt g k.dyn dens p st = some x) :
    (Spec.Region g.r k (g.toMap p) ∧ b ∈ st.bundleIndices →
      x = ∑ c ∈ Finset.range (2 ^ d), Spec.hat g.r c (generateIndex b c) (g.toMap p) * dens (cellMates g.r (Spec.accepted g k ops) c (g.toMap p)) (g.toMap p)) ∧
    (¬ (Spec.Region g.r k (g.toMap p) ∧ b ∈ st.bundleIndices) → x = 0) := by
  have hre : Reachable k g exp st := ⟨ops, h⟩
  have hI := hre.rinv
  have hbi := toBundleIndex_of_inBundle hr hb
  have hcl : Spec.InClosedBundle g.r b (g.toMap p) := fun i => ⟨(hb i).1, (hb i).2.le⟩
  unfold sampleBilinearAt sampleBilinear at hx
  obtain ⟨h1, h2⟩ := (sampleWith_spec k.lawful k.dyn _ _ _ st hI).1 x hx
  have hval : st.valid k.dyn (toBundleIndex g.r (g.toMap p)) = true ↔ Spec.Region g.r k (g.toMap p) := by
    rw [← valid_iff_region (Multiset (Pt K d)) g.r hr k]
    show st.abs.valid _ _ = true ↔ _
    rw [hre.keeps.valid]
  have hal : toBundleIndex g.r (g.toMap p) ∈ st.abs.allocated ↔ b ∈ st.bundleIndices := by
    rw [hbi, mem_allocated_iff, mem_bundleIndices k.lawful st hI.inv]
  rw [hval, hal] at h1 h2
  refine ⟨fun hh => ?_, h2⟩
  rw [h1 hh]
  refine Finset.sum_congr rfl fun c hc => ?_
  rw [val_eq_cellMates k g hr exp ops st h c (Finset.mem_range.1 hc), ← C25_weight_is_hat hr b _ hcl, hbi]
  rfl

/-- **C25** (bilinear sampling is bounded by the densities). -/
theorem C25_bilinear_sample_between (k : Kind d) (g : Geo K d) (hr : 0 < g.r) (exp : Multiset (Pt K d) → Bool) (ops : List (GridOp K d))
    (st : St k.backend (Multiset (Pt K d))) (h : gridRun g k.dyn exp ops (k.init _) = some st)
    (dens : Multiset (Pt K d) → Pt K d → K) (p : Pt K d) (b : Idx d) (hb : Spec.InBundle g.r b (g.toMap p)) (x lo hi : K)
    (hx : sampleBilinearAt g k.dyn dens p st = some x) (hreg : Spec.Region g.r k (g.toMap p)) (hal : b ∈ st.bundleIndices)
    (hf : ∀ c, c < 2 ^ d → lo ≤ dens (cellMates g.r (Spec.accepted g k ops) c (g.toMap p)) (g.toMap p) ∧
      dens (cellMates g.r (Spec.accepted g k ops) c (g.toMap p)) (g.toMap p) ≤ hi) : lo ≤ x ∧ x ≤ hi := by
  have hcl : Spec.InClosedBundle g.r b (g.toMap p) := fun i => ⟨(hb i).1, (hb i).2.le⟩
  rw [(C25_bilinear_sample k g hr exp ops st h dens p b hb x hx).1 ⟨hreg, hal⟩]
  have := C25_between hr b _ hcl (fun c _ => dens (cellMates g.r (Spec.accepted g k ops) c (g.toMap p)) (g.toMap p)) lo hi hf
  unfold interpolate at this
  simp only [C25_weight_is_hat hr b _ hcl] at this
  exact this

/-- **C24** (dynamic maps: defined for every index the octree covers). -/
theorem C24_dynamic_total (gb : Nat → Nat) (gb' : Nat) (g : Geo K d) (exp : Multiset (Pt K d) → Bool) (ops : List (GridOp K d))
    (st : St (Kind.dynamic (d := d) gb gb').backend (Multiset (Pt K d))) (h : gridRun g true exp ops ((Kind.dynamic gb gb').init _) = some st)
    (dens : Multiset (Pt K d) → Pt K d → K) (p : Pt K d) (hp : Spec.InRange (toBundleIndex g.r (g.toMap p))) :
    (∃ x, sampleNNAt g true dens p st = some x) ∧ (∃ x, sampleBilinearAt g true dens p st = some x) := by
  have hre : Reachable (.dynamic gb gb') g exp st := ⟨ops, h⟩
  have hg := (hre.keeps.good _).2 (dynamic_good (Multiset (Pt K d)) gb gb' _ hp)
  exact ⟨(sampleWith_spec (octreeLawful d) true _ _ _ st hre.rinv).2 hg, (sampleWith_spec (octreeLawful d) true _ _ _ st hre.rinv).2 hg⟩

/-- Non-vacuity: the sample history on a dynamic map, sampled at an occupied point. -/
example (dens : Multiset (Pt ℚ 2) → Pt ℚ 2 → ℚ) : ∃ st x, gridRun sampleGeo true (fun _ => true) sampleOps ((Kind.dynamic 0 0).init _) = some st ∧
    sampleNNAt sampleGeo true dens ![1/5, 1/5] st = some x ∧ Spec.InBundle sampleGeo.r ![0, 0] (sampleGeo.toMap ![1/5, 1/5]) ∧
    Spec.Region sampleGeo.r (.dynamic 0 0) (sampleGeo.toMap ![1/5, 1/5]) ∧ ![0, 0] ∈ st.bundleIndices := by
  obtain ⟨st, h⟩ := sample_runs 0 0 (fun _ => true)
  have hR : Reachable (.dynamic 0 0) sampleGeo (fun _ => true) st := ⟨sampleOps, h⟩
  have e : toBundleIndex sampleGeo.r ![1/5, 1/5] = ![0, 0] := by
    funext a; fin_cases a <;> norm_num [toBundleIndex, bundleResolutionInv, bundleResolution, sampleGeo]
  obtain ⟨x, hx⟩ := (C24_dynamic_total 0 0 sampleGeo _ sampleOps st h dens ![1/5, 1/5] (by
    show Spec.InRange (toBundleIndex sampleGeo.r ![1/5, 1/5])
    rw [e]; decide)).1
  refine ⟨st, x, h, hx, ?_, trivial, ?_⟩
  · rw [← e]; exact (C01_bundle_contains_point (by decide) _ _).1 rfl
  · have h4 := (gridRun_spec (octreeLawful 2) sampleGeo true _ sampleOps _ st (Kind.init_rinv (.dynamic 0 0)) h).2.2.2
    have := h4 ![1/5, 1/5] (by simp [accOps, accList, sampleOps, sampleGeo, Abs.valid])
    rw [mem_allocated_iff, e] at this
    exact (mem_bundleIndices _ st hR.rinv.inv _).2 this

end C24

/-! ### C22 -/
section C22
variable {K : Type} [Field K] [LinearOrder K] [FloorRing K] {d : Nat}

/-- **C22** (maps). Both sampling functions of (weighted) occupancy maps throw for a null inverse model, whatever the map, the point and the index, and with a model never
throw. -/
theorem C22_sampling_null_model {B : Backend d} {W E M : Type} (g : Geo K d) (dyn : Bool) (dens : Multiset E → Pt K d → K) (occ : M → Occ W E → K)
    (p : Pt K d) (bi : Idx d) (ivm : Option M) (st : St B (Occ W E)) :
    ((∃ e, occSampleNN dyn dens occ p bi ivm st = .error e) ↔ ivm = none) ∧
    ((∃ e, occSampleBilinear g.r dyn dens occ p bi ivm st = .error e) ↔ ivm = none) ∧
    ((∃ e, occSampleNNAt g dyn dens occ p ivm st = .error e) ↔ ivm = none) ∧
    ((∃ e, occSampleBilinearAt g dyn dens occ p ivm st = .error e) ↔ ivm = none) := by
  cases ivm with
  | none => exact ⟨⟨fun _ => rfl, fun _ => ⟨_, rfl⟩⟩, ⟨fun _ => rfl, fun _ => ⟨_, rfl⟩⟩, ⟨fun _ => rfl, fun _ => ⟨_, rfl⟩⟩, ⟨fun _ => rfl, fun _ => ⟨_, rfl⟩⟩⟩
  | some m =>
    refine ⟨⟨?_, fun h => by cases h⟩, ⟨?_, fun h => by cases h⟩, ⟨?_, fun h => by cases h⟩, ⟨?_, fun h => by cases h⟩⟩ <;> rintro ⟨e, h⟩ <;> cases h

end C22
end Ndt
