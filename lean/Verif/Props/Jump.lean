import Verif.Props.Continuity

/-! Property theorems C103: sampling without interpolation, as a function of the point. It is continuous inside the bundles; at their borders it jumps, by at most `1 - 2^-k` of the largest density
on a border of `k` axes. -/

namespace Ndt
open St Abs Topology Filter

namespace Spec
variable {d : Nat}

/-- The axes along which the point `p` (in map coordinates) lies on a border of bundles, that is on a multiple of half the resolution. -/
def BorderAxis (r : ℝ) (p : Fin d → ℝ) (i : Fin d) : Prop := ∃ n : ℤ, p i = n * (r / 2)

open scoped Classical in
/-- The number of such axes: 0 inside of a bundle, 1 on a face, 2 on an edge of a 3d map, … -/
noncomputable def borderAxes (r : ℝ) (p : Fin d → ℝ) : Nat := (Finset.univ.filter (BorderAxis r p)).card

end Spec

section
variable {d : Nat}

/-- the part of the bins that two adjacent bundles share -/
theorem shared_part (b b' : Idx d) (hn : ∀ i, |b i - b' i| ≤ 1) (f : Nat → ℝ) (hf : ∀ c, generateIndex b c ≠ generateIndex b' c → f c ≤ 1) (hf0 : ∀ c, generateIndex b c = generateIndex b' c → f c = 0) :
    (∑ c ∈ Finset.range (2 ^ d), divCount ℝ d * f c) ≤ 1 - (1 / 2) ^ (Finset.univ.filter fun i => b i ≠ b' i).card := by
  classical
  let t : Fin d → ℝ := fun i => if b i = b' i then 1 / 2 else if (min (b i) (b' i)) % 2 = 0 then 0 else 1
  have hw := sum_interpolationWeight (K := ℝ) t
  have hg : ∀ (b : Idx d) c i, generateIndex b c i = if c.testBit i.1 then (b i + 1) / 2 else b i / 2 := fun b c i => getIndexInner_eq _ _ _
  -- a bin is shared exactly if on every axis it lies on the common side
  have hS : ∀ c i, generateIndex b c i = generateIndex b' c i ↔ (b i = b' i ∨ (if c.testBit i.1 then (min (b i) (b' i)) % 2 ≠ 0 else (min (b i) (b' i)) % 2 = 0)) := by
    intro c i
    have h1 := hn i
    rw [abs_le] at h1
    rw [hg, hg]
    by_cases hc : c.testBit i.1 = true
    · simp only [if_pos hc]
      rcases le_total (b i) (b' i) with h | h
      · rw [min_eq_left h]; omega
      · rw [min_eq_right h]; omega
    · simp only [if_neg hc]
      rcases le_total (b i) (b' i) with h | h
      · rw [min_eq_left h]; omega
      · rw [min_eq_right h]; omega
  have hterm : ∀ c, divCount ℝ d * f c ≤ divCount ℝ d - (1 / 2) ^ (Finset.univ.filter fun i => b i ≠ b' i).card * interpolationWeight t c := by
    intro c
    have hd : divCount ℝ d = (1 / 2) ^ d := by rw [divCount_eq, one_div, one_div, inv_pow]
    have hd0 : 0 ≤ divCount ℝ d := by rw [hd]; positivity
    rw [interpolationWeight_eq]
    by_cases he : generateIndex b c = generateIndex b' c
    · rw [hf0 c he, mul_zero]
      have : (∏ i : Fin d, if c.testBit i.1 then t i else 1 - t i) = ∏ i : Fin d, if b i = b' i then (1 / 2 : ℝ) else 1 := by
        refine Finset.prod_congr rfl fun i _ => ?_
        have := (hS c i).1 (congrFun he i)
        by_cases e : b i = b' i
        · simp only [t, if_pos e]; split <;> norm_num
        · have h2 := this.resolve_left e
          simp only [t, if_neg e]
          by_cases hc : c.testBit i.1 = true
          · rw [if_pos hc] at h2 ⊢; rw [if_neg h2]
          · rw [if_neg hc] at h2 ⊢; rw [if_pos h2]; norm_num
      rw [this, Finset.prod_ite, Finset.prod_const, Finset.prod_const_one, mul_one, ← pow_add, hd]
      have hcard : (Finset.univ.filter fun i => b i ≠ b' i).card + (Finset.univ.filter fun i => b i = b' i).card = d := by
        rw [add_comm, Finset.card_filter_add_card_filter_not, Finset.card_univ, Fintype.card_fin]
      rw [hcard, sub_self]
    · obtain ⟨i, hi⟩ := Function.ne_iff.1 he
      have h3 : ¬ _ := fun h => hi ((hS c i).2 h)
      rw [not_or] at h3
      obtain ⟨e, h3⟩ := h3
      have : (if c.testBit i.1 then t i else 1 - t i) = 0 := by
        simp only [t, if_neg e]
        by_cases hc : c.testBit i.1 = true
        · rw [if_pos hc] at h3 ⊢; rw [if_pos (not_not.1 h3)]
        · rw [if_neg hc] at h3 ⊢; rw [if_neg h3]; norm_num
      rw [Finset.prod_eq_zero (Finset.mem_univ i) this, mul_zero, sub_zero]
      exact mul_le_of_le_one_right hd0 (hf c he)
  refine (Finset.sum_le_sum fun c _ => hterm c).trans ?_
  rw [Finset.sum_sub_distrib, ← Finset.mul_sum, hw, mul_one, Finset.sum_const, Finset.card_range, divCount_eq, nsmul_eq_mul]
  push_cast
  rw [mul_one_div, div_self (by positivity)]

/-- bundles whose closures contain a point differ only on axes on whose borders the point lies -/
theorem border_axes_of_closed {r : ℝ} (hr : 0 < r) (b b' : Idx d) (p : Pt ℝ d) (hp : Spec.InClosedBundle r b p) (hp' : Spec.InClosedBundle r b' p) :
    (∀ i, |b i - b' i| ≤ 1) ∧ (∀ i, b i ≠ b' i → Spec.BorderAxis r p i) := by
  have key : ∀ i, |b i - b' i| ≤ 1 := by
    intro i
    obtain ⟨h1, h2⟩ := hp i
    obtain ⟨h3, h4⟩ := hp' i
    have h5 : (b i : ℝ) ≤ (b' i : ℝ) + 1 := le_of_mul_le_mul_right (h1.trans h4) (half_pos hr)
    have h6 : (b' i : ℝ) ≤ (b i : ℝ) + 1 := le_of_mul_le_mul_right (h3.trans h2) (half_pos hr)
    have h7 : b i ≤ b' i + 1 := by exact_mod_cast h5
    have h8 : b' i ≤ b i + 1 := by exact_mod_cast h6
    rw [abs_le]; omega
  refine ⟨key, fun i hne => ?_⟩
  obtain ⟨h1, h2⟩ := hp i
  obtain ⟨h3, h4⟩ := hp' i
  have h := key i
  rw [abs_le] at h
  rcases (by omega : b' i = b i + 1 ∨ b i = b' i + 1) with e | e
  · refine ⟨b' i, le_antisymm ?_ h3⟩
    rw [e]; push_cast; exact h2
  · refine ⟨b i, le_antisymm ?_ h1⟩
    rw [e]; push_cast; exact h4

/-- the values of two adjacent bundles at a common point of their closures -/
theorem bundle_jump {r : ℝ} (hr : 0 < r) (b b' : Idx d) (p : Pt ℝ d) (hp : Spec.InClosedBundle r b p) (hp' : Spec.InClosedBundle r b' p) (v : Nat → Idx d → ℝ) {m : ℝ} (hm : 0 ≤ m)
    (hv : ∀ c k, 0 ≤ v c k ∧ v c k ≤ m) :
    (∑ c ∈ Finset.range (2 ^ d), divCount ℝ d * v c (generateIndex b c)) - (∑ c ∈ Finset.range (2 ^ d), divCount ℝ d * v c (generateIndex b' c)) ≤ (1 - (1 / 2) ^ Spec.borderAxes r p) * m := by
  classical
  obtain ⟨hn, hax⟩ := border_axes_of_closed hr b b' p hp hp'
  have hd0 : 0 ≤ divCount ℝ d := by rw [divCount_eq]; positivity
  let f : Nat → ℝ := fun c => if generateIndex b c = generateIndex b' c then 0 else 1
  have h1 := shared_part b b' hn f (fun c h => by simp only [f, if_neg h]; exact le_refl _) (fun c h => by simp only [f, if_pos h])
  have h2 : (Finset.univ.filter fun i => b i ≠ b' i).card ≤ Spec.borderAxes r p := by
    unfold Spec.borderAxes
    refine Finset.card_le_card fun i hi => ?_
    rw [Finset.mem_filter] at hi ⊢
    exact ⟨hi.1, hax i hi.2⟩
  have h3 : (1 / 2 : ℝ) ^ Spec.borderAxes r p ≤ (1 / 2) ^ (Finset.univ.filter fun i => b i ≠ b' i).card := pow_le_pow_of_le_one (by norm_num) (by norm_num) h2
  rw [← Finset.sum_sub_distrib]
  calc _ ≤ ∑ c ∈ Finset.range (2 ^ d), divCount ℝ d * f c * m := by
        refine Finset.sum_le_sum fun c _ => ?_
        rw [← mul_sub, mul_assoc]
        refine mul_le_mul_of_nonneg_left ?_ hd0
        by_cases h : generateIndex b c = generateIndex b' c
        · simp only [f, if_pos h, h, sub_self, zero_mul, le_refl]
        · simp only [f, if_neg h, one_mul]
          linarith [(hv c (generateIndex b c)).2, (hv c (generateIndex b' c)).1]
    _ = (∑ c ∈ Finset.range (2 ^ d), divCount ℝ d * f c) * m := by rw [Finset.sum_mul]
    _ ≤ _ := mul_le_mul_of_nonneg_right (h1.trans (by linarith)) hm

/-- **C103** (same bundle). In any state whatsoever of any map, for two points of the same bundle: if no density differs by more than `e` between the points, then the sampled values do not either. -/
theorem C103_same_bundle_partial {D : Type} [Inhabited D] (k : Kind d) {exp : D → Bool} (st : St k.backend D) (hR : MapReachable k exp st) (g : Geo ℝ d)
    (dens : D → Pt ℝ d → ℝ) (p q : Pt ℝ d) (e : ℝ) (he : 0 ≤ e) (hb : toBundleIndex g.r (g.toMap p) = toBundleIndex g.r (g.toMap q)) (hdens : ∀ s, |dens s (g.toMap p) - dens s (g.toMap q)| ≤ e)
    (x y : ℝ) (hx : sampleNNAt g k.dyn dens p st = some x) (hy : sampleNNAt g k.dyn dens q st = some y) : |x - y| ≤ e := by
  have h1 := (sampleWith_spec k.lawful k.dyn _ _ _ st hR.spec.1).1 x hx
  have h2 := (sampleWith_spec k.lawful k.dyn _ _ _ st hR.spec.1).1 y hy
  rw [← hb] at h2
  by_cases ha : st.valid k.dyn (toBundleIndex g.r (g.toMap p)) = true ∧ toBundleIndex g.r (g.toMap p) ∈ st.abs.allocated
  · have hd0 : 0 ≤ divCount ℝ d := by rw [divCount_eq]; positivity
    rw [h1.1 ha, h2.1 ha, ← Finset.sum_sub_distrib]
    calc _ ≤ ∑ c ∈ Finset.range (2 ^ d), |divCount ℝ d * _ - divCount ℝ d * _| := Finset.abs_sum_le_sum_abs _ _
      _ ≤ ∑ c ∈ Finset.range (2 ^ d), divCount ℝ d * e := by
          refine Finset.sum_le_sum fun c _ => ?_
          rw [← mul_sub, abs_mul, abs_of_nonneg hd0]
          exact mul_le_mul_of_nonneg_left (hdens _) hd0
      _ = e := by
          rw [Finset.sum_const, Finset.card_range, divCount_eq, nsmul_eq_mul]
          push_cast
          field_simp
  · rw [h1.2 ha, h2.2 ha, sub_zero, abs_zero]
    exact he

/-- **C103** (inside of bundles). At a point that lies on no border of bundles, sampling without interpolation is continuous, whatever the history of the map and whether or not the bundle is allocated; the result is
defined in a neighbourhood if it is defined at the point. -/
theorem C103_inside_partial {D : Type} [Inhabited D] (k : Kind d) {exp : D → Bool} (st : St k.backend D) (hR : MapReachable k exp st) (g : Geo ℝ d) (hr : 0 < g.r)
    (dens : D → Pt ℝ d → ℝ) (p : Pt ℝ d) (hT : ContinuousAt g.toMap p) (hdens : ∀ s, ContinuousAt (dens s) (g.toMap p)) (hb : ∀ i, ¬ Spec.BorderAxis g.r (g.toMap p) i) :
    (∀ᶠ q in 𝓝 p, (sampleNNAt g k.dyn dens q st).isSome = (sampleNNAt g k.dyn dens p st).isSome) ∧ ContinuousAt (fun q => (sampleNNAt g k.dyn dens q st).getD 0) p := by
  have hev := hT.eventually (eventually_inClosedBundle hr (g.toMap p))
  have hself := hev.self_of_nhds
  have hidx : ∀ᶠ q in 𝓝 p, toBundleIndex g.r (g.toMap q) = toBundleIndex g.r (g.toMap p) := by
    filter_upwards [hev] with q hq
    funext i
    by_contra hne
    exact hb i ((border_axes_of_closed hr _ _ _ hq hself).2 i hne)
  set b := toBundleIndex g.r (g.toMap p) with hbdef
  have hval : ∀ᶠ q in 𝓝 p, sampleNNAt g k.dyn dens q st = sampleNN k.dyn dens (g.toMap q) b st := by
    filter_upwards [hidx] with q hq
    unfold sampleNNAt; rw [hq]
  have hsome : ∀ q, (sampleNN k.dyn dens q b st).isSome = (sampleNN k.dyn dens (g.toMap p) b st).isSome := by
    intro q
    unfold sampleNN sampleWith
    split
    · split
      · split <;> rfl
      · rfl
    · rfl
  refine ⟨by filter_upwards [hval] with q hq; rw [hq, hsome]; rfl, ?_⟩
  have hF : ContinuousAt (fun q => (sampleNN k.dyn dens q b st).getD 0) (g.toMap p) := by
    by_cases ha : st.valid k.dyn b = true ∧ b ∈ st.abs.allocated
    · have e : (fun q => (sampleNN k.dyn dens q b st).getD 0) = fun q => ∑ c ∈ Finset.range (2 ^ d), divCount ℝ d * dens (st.abs.val c (generateIndex b c)) q := by
        funext q
        unfold sampleNN
        rw [sampleWith_allocated k.lawful k.dyn _ _ _ st hR.spec.1 ha.1 ((mem_bundleIndices k.lawful st hR.spec.1.inv b).2 ((mem_allocated_iff st b).1 ha.2))]
        rfl
      rw [e]
      exact tendsto_finset_sum _ fun c _ => continuousAt_const.mul (hdens _)
    · have e : (fun q => (sampleNN k.dyn dens q b st).getD 0) = fun _ => 0 := by
        funext q
        cases hx : sampleNN k.dyn dens q b st with
        | none => rfl
        | some x => exact ((sampleWith_spec k.lawful k.dyn _ _ _ st hR.spec.1).1 x hx).2 ha
      rw [e]
      exact continuousAt_const
  refine (ContinuousAt.comp (f := g.toMap) hF hT).congr ?_
  filter_upwards [hval] with q hq
  show (sampleNN k.dyn dens (g.toMap q) b st).getD 0 = _
  rw [hq]

/-- **C103** (at borders). Let all bundles whose closure contains `p` be allocated and all densities lie between 0 and `m`. Then in a neighbourhood of `p` the sampled value differs from the one at `p` by at most
`(1 - 2^-k) m`, up to any `ε`, where `k` is the number of axes along which `p` lies on a border: half the largest density on a face, three quarters on an edge, seven eighths in a corner of a 3d map, and nothing at all
inside. -/
theorem C103_jump_partial {D : Type} [Inhabited D] (k : Kind d) {exp : D → Bool} (st : St k.backend D) (hR : MapReachable k exp st) (g : Geo ℝ d) (hr : 0 < g.r)
    (dens : D → Pt ℝ d → ℝ) (m : ℝ) (hm : ∀ s q, 0 ≤ dens s q ∧ dens s q ≤ m) (p : Pt ℝ d) (hT : ContinuousAt g.toMap p) (hdens : ∀ s, ContinuousAt (dens s) (g.toMap p))
    (hb : ∀ b, Spec.InClosedBundle g.r b (g.toMap p) → b ∈ st.bundleIndices) (ε : ℝ) (hε : 0 < ε) :
    ∀ᶠ q in 𝓝 p, ∃ x y, sampleNNAt g k.dyn dens p st = some x ∧ sampleNNAt g k.dyn dens q st = some y ∧ |y - x| ≤ (1 - (1 / 2) ^ Spec.borderAxes g.r (g.toMap p)) * m + ε := by
  let F : Idx d → Pt ℝ d → ℝ := fun b q => ∑ c ∈ Finset.range (2 ^ d), divCount ℝ d * dens (st.abs.val c (generateIndex b c)) q
  have hm0 : 0 ≤ m := (hm default (g.toMap p)).1.trans (hm default (g.toMap p)).2
  have hval : ∀ q, Spec.InClosedBundle g.r (toBundleIndex g.r (g.toMap q)) (g.toMap p) → sampleNNAt g k.dyn dens q st = some (F (toBundleIndex g.r (g.toMap q)) (g.toMap q)) := fun q hq =>
    sampleWith_allocated k.lawful k.dyn _ (fun s => dens s (g.toMap q)) _ st hR.spec.1 (hR.valid _ (hb _ hq)) (hb _ hq)
  have hev := hT.eventually (eventually_inClosedBundle hr (g.toMap p))
  have hself := hev.self_of_nhds
  have hF : ∀ b, ContinuousAt (F b) (g.toMap p) := fun b => tendsto_finset_sum _ fun c _ => continuousAt_const.mul (hdens _)
  have hall : ∀ᶠ q in 𝓝 (g.toMap p), ∀ b ∈ {b : Idx d | Spec.InClosedBundle g.r b (g.toMap p)}, |F b q - F b (g.toMap p)| < ε := by
    refine (eventually_all_finite (finite_closedBundles hr (g.toMap p))).2 fun b _ => ?_
    have := (Metric.tendsto_nhds.1 (hF b)) ε hε
    exact this
  filter_upwards [hev, hT.eventually hall] with q h1 h2
  refine ⟨_, _, hval p hself, hval q h1, ?_⟩
  have h3 := h2 _ h1
  have h4 := bundle_jump hr _ _ _ h1 hself (fun c k => dens (st.abs.val c k) (g.toMap p)) hm0 (fun c k => hm _ _)
  have h5 := bundle_jump hr _ _ _ hself h1 (fun c k => dens (st.abs.val c k) (g.toMap p)) hm0 (fun c k => hm _ _)
  have h6 := abs_lt.1 h3
  have e1 : F (toBundleIndex g.r (g.toMap q)) (g.toMap p) - F (toBundleIndex g.r (g.toMap p)) (g.toMap p) ≤ (1 - (1 / 2) ^ Spec.borderAxes g.r (g.toMap p)) * m := h4
  have e2 : F (toBundleIndex g.r (g.toMap p)) (g.toMap p) - F (toBundleIndex g.r (g.toMap q)) (g.toMap p) ≤ (1 - (1 / 2) ^ Spec.borderAxes g.r (g.toMap p)) * m := h5
  rw [abs_le]
  constructor <;> linarith

/-- **C103** (occupancy maps): the same bound for (weighted) occupancy maps, whose values are densities times occupancies. -/
theorem C103_occupancy_jump_partial {W E M : Type} [AddCommMonoid W] (k : Kind d) {exp : Occ W E → Bool} (st : St k.backend (Occ W E)) (hR : MapReachable k exp st) (g : Geo ℝ d) (hr : 0 < g.r)
    (dens : Multiset E → Pt ℝ d → ℝ) (occ : M → Occ W E → ℝ) (im : M) (m : ℝ) (hm0 : 0 ≤ m) (hm : ∀ s q, 0 ≤ dens s q ∧ dens s q ≤ m) (hocc : ∀ o, 0 ≤ occ im o ∧ occ im o ≤ 1) (p : Pt ℝ d) (hT : ContinuousAt g.toMap p)
    (hdens : ∀ s, ContinuousAt (dens s) (g.toMap p)) (hb : ∀ b, Spec.InClosedBundle g.r b (g.toMap p) → b ∈ st.bundleIndices) (ε : ℝ) (hε : 0 < ε) :
    ∀ᶠ q in 𝓝 p, ∃ x y, occSampleNNAt g k.dyn dens occ p (some im) st = .ok (some x) ∧ occSampleNNAt g k.dyn dens occ q (some im) st = .ok (some y) ∧
      |y - x| ≤ (1 - (1 / 2) ^ Spec.borderAxes g.r (g.toMap p)) * m + ε := by
  have h := C103_jump_partial k st hR g hr (fun o x => occValue dens (occ im) x o) m ?_ p hT ?_ hb ε hε
  · refine h.mono fun q ⟨x, y, h1, h2, h3⟩ => ⟨x, y, ?_, ?_, h3⟩
    · exact congrArg Except.ok h1
    · exact congrArg Except.ok h2
  · intro o q
    unfold occValue
    cases o.data with
    | none => exact ⟨le_refl _, hm0⟩
    | some s => exact ⟨mul_nonneg (hm s q).1 (hocc o).1, (mul_le_of_le_one_right (hm s q).1 (hocc o).2).trans (hm s q).2⟩
  · intro o
    unfold occValue
    cases o.data with
    | none => exact continuousAt_const
    | some s => exact (hdens s).mul continuousAt_const

end

/-! ### A one-dimensional map with one point, after the expansion -/

/-- the density of the sample: 1 for a distribution with a point, 0 for an empty one, at every point of the plane -/
noncomputable def sampleDensity (s : Multiset (Pt ℝ 1)) (_ : Pt ℝ 1) : ℝ := if Multiset.card s = 0 then 0 else 1

theorem jump_sample : ∃ s1 : St (octreeBackend 1) (Multiset (Pt ℝ 1)), Reachable (.dynamic 0 0) realGeo (fun _ => true) s1 ∧
    (∀ b, Spec.InClosedBundle realGeo.r b (fun _ => 1 / 2) → b ∈ s1.bundleIndices) ∧
    (∀ x : ℝ, 0 ≤ x → x < 1 / 2 → sampleNNAt realGeo true sampleDensity (fun _ => x) s1 = some 1) ∧
    sampleNNAt realGeo true sampleDensity (fun _ => 1 / 2) s1 = some (1 / 2) := by
  obtain ⟨s0, s1, h0, hb, hc, h1, hv⟩ := real_runs_val fun _ => true
  have hbi : ∀ b, Spec.InClosedBundle realGeo.r b (fun _ => 1 / 2) → b ∈ s1.bundleIndices := by
    intro b hbp
    refine (C18_expand_allocates_exactly (.dynamic 0 0) realGeo _ s0 s1 h0 h1 b).2 ?_
    obtain ⟨h2, h3⟩ := hbp 0
    simp only [realGeo] at h2 h3
    have h4 : (b 0 : ℝ) ≤ 1 := by linarith
    have h5 : (0 : ℝ) ≤ b 0 := by linarith
    have h6 : b 0 ≤ 1 := by exact_mod_cast h4
    have h7 : 0 ≤ b 0 := by exact_mod_cast h5
    have hR0 : RInv (octreeLawful 1) true s0 := h0.rinv
    obtain ⟨x, hx⟩ := Option.isSome_iff_exists.1 ((mem_bundleIndices (octreeLawful 1) s0 hR0.inv _).1 ((hb (fun _ => 0)).2 rfl))
    have hn : Spec.Neighbour (fun _ : Fin 1 => (0 : Int)) b := by
      intro a
      have : a = 0 := Subsingleton.elim _ _
      subst this
      rw [abs_le]; constructor <;> simp only [zero_sub] <;> omega
    by_cases he : x.expand = true
    · exact Or.inr ⟨rfl, _, (hb _).2 rfl, hn, by rw [show s0.bundle (fun _ => 0) = some x from hx, Option.map_some, he], 0, by decide, _, hc, rfl⟩
    · left
      have hf : s0.abs.flags (fun _ => 0) = some false := by
        show (s0.bundle (fun _ => 0)).map Bundle.expand = some false
        rw [hx, Option.map_some, Bool.eq_false_iff.2 he]
      have := hR0.closed _ hf b rfl hn
      exact (mem_bundleIndices (octreeLawful 1) s0 hR0.inv b).2 ((mem_allocated_iff s0 b).1 this)
  have h0' := h0
  obtain ⟨ops, hops⟩ := h0
  have hR : Reachable (.dynamic 0 0) realGeo (fun _ => true) s1 := ⟨ops ++ [.core .expandAll], by
    rw [gridRun_append, hops]
    simp only [Option.bind_some, gridRun]
    exact (congrArg (·.bind some) h1).trans rfl⟩
  have hI : RInv (octreeLawful 1) true s1 := hR.rinv
  have hv1 : ∀ c, c < 2 → ∀ k, s1.abs.val c k = if generateIndex (fun _ => 0) c = k then {realPoint} else 0 := by
    intro c hc2 k
    rw [← hv c hc2 k]
    exact (C18_expand_keeps_contents (.dynamic 0 0) realGeo _ s0 s1 h0' h1).2.2 c k
  have hin0 : (fun _ : Fin 1 => (0 : Int)) ∈ s1.bundleIndices := hbi _ fun a => by constructor <;> simp [realGeo]
  have hin1 : (fun _ : Fin 1 => (1 : Int)) ∈ s1.bundleIndices := hbi _ fun a => by constructor <;> norm_num [realGeo]
  have g00 : generateIndex (fun _ : Fin 1 => (0 : Int)) 0 = generateIndex (fun _ => 1) 0 := by decide
  have g01 : ¬ generateIndex (fun _ : Fin 1 => (0 : Int)) 1 = generateIndex (fun _ => 1) 1 := by decide
  refine ⟨s1, hR, hbi, fun x hx hx' => ?_, ?_⟩
  · show sampleNN true sampleDensity (fun _ => x) (toBundleIndex realGeo.r (fun _ => x)) s1 = some 1
    rw [real_index hx hx']
    unfold sampleNN
    rw [sampleWith_allocated (octreeLawful 1) true _ _ _ s1 hI rfl hin0]
    simp only [show 2 ^ 1 = 2 from rfl, Finset.sum_range_succ, Finset.sum_range_zero, divCount_eq]
    rw [hv1 0 (by decide), hv1 1 (by decide), if_pos rfl, if_pos rfl]
    norm_num [sampleDensity]
  · show sampleNN true sampleDensity (fun _ => 1 / 2) (toBundleIndex realGeo.r (fun _ => 1 / 2)) s1 = some (1 / 2)
    rw [real_index_half]
    unfold sampleNN
    rw [sampleWith_allocated (octreeLawful 1) true _ _ _ s1 hI rfl hin1]
    simp only [show 2 ^ 1 = 2 from rfl, Finset.sum_range_succ, Finset.sum_range_zero, divCount_eq]
    rw [hv1 0 (by decide), hv1 1 (by decide), if_pos g00, if_neg g01]
    norm_num [sampleDensity]

/-- **C103** (refuted): the value sampled without interpolation is not a continuous function of the point, even if all bundles around the point are allocated and all densities are constant. -/
theorem C103_continuous_refuted : ∃ (s1 : St (octreeBackend 1) (Multiset (Pt ℝ 1))) (dens : Multiset (Pt ℝ 1) → Pt ℝ 1 → ℝ), Reachable (.dynamic 0 0) realGeo (fun _ => true) s1 ∧ (∀ s p q, dens s p = dens s q) ∧
    (∀ b, Spec.InClosedBundle realGeo.r b (realGeo.toMap fun _ => 1 / 2) → b ∈ s1.bundleIndices) ∧
    ¬ ContinuousAt (fun q => (sampleNNAt realGeo true dens q s1).getD 0) (fun _ => 1 / 2) := by
  obtain ⟨s1, hR, hb, hl, hr⟩ := jump_sample
  refine ⟨s1, sampleDensity, hR, fun _ _ _ => rfl, hb, fun hcont => ?_⟩
  have hin : ContinuousAt (fun x : ℝ => (fun _ => x : Pt ℝ 1)) (1 / 2) := (continuous_pi fun _ => continuous_id).continuousAt
  have hh : ContinuousAt (fun x : ℝ => (sampleNNAt realGeo true sampleDensity (fun _ => x) s1).getD 0) (1 / 2) := ContinuousAt.comp (f := fun x : ℝ => (fun _ => x : Pt ℝ 1)) hcont hin
  have t1 : Tendsto (fun x : ℝ => (sampleNNAt realGeo true sampleDensity (fun _ => x) s1).getD 0) (𝓝[<] (1 / 2)) (𝓝 (1 / 2)) := by
    have := hh.tendsto.mono_left (nhdsWithin_le_nhds (s := Set.Iio (1 / 2 : ℝ)))
    rwa [hr, Option.getD_some] at this
  have t2 : Tendsto (fun x : ℝ => (sampleNNAt realGeo true sampleDensity (fun _ => x) s1).getD 0) (𝓝[<] (1 / 2)) (𝓝 1) := by
    refine tendsto_const_nhds.congr' ?_
    have : ∀ᶠ x : ℝ in 𝓝[<] (1 / 2), 0 ≤ x := (eventually_ge_nhds (by norm_num : (0 : ℝ) < 1 / 2)).filter_mono nhdsWithin_le_nhds
    filter_upwards [this, self_mem_nhdsWithin] with x h1 h2
    rw [hl x h1 h2]; rfl
  have := tendsto_nhds_unique t1 t2
  norm_num at this

/-- Non-vacuity: in this map the point 1/2 lies on the border of one axis, all its bundles are allocated and the bound of one half is attained, so it cannot be improved. -/
example : ∃ s1 : St (octreeBackend 1) (Multiset (Pt ℝ 1)), MapReachable (.dynamic 0 0) (fun _ => true) s1 ∧ (∀ s q, 0 ≤ sampleDensity s q ∧ sampleDensity s q ≤ 1) ∧
    Spec.borderAxes realGeo.r (fun _ : Fin 1 => 1 / 2) = 1 ∧ (∀ b, Spec.InClosedBundle realGeo.r b (realGeo.toMap fun _ => 1 / 2) → b ∈ s1.bundleIndices) ∧
    ∀ x : ℝ, 0 ≤ x → x < 1 / 2 → |(sampleNNAt realGeo true sampleDensity (fun _ => x) s1).getD 0 - (sampleNNAt realGeo true sampleDensity (fun _ => 1 / 2) s1).getD 0| = 1 - (1 / 2) ^ 1 := by
  obtain ⟨s1, ⟨ops, hops⟩, hb, hl, hr⟩ := jump_sample
  refine ⟨s1, grid_reachable realGeo (.dynamic 0 0) _ ops _ s1 .init hops, fun s q => ?_, ?_, hb, fun x h1 h2 => ?_⟩
  · unfold sampleDensity; split <;> norm_num
  · classical
    unfold Spec.borderAxes
    have : Finset.univ.filter (Spec.BorderAxis realGeo.r (fun _ : Fin 1 => 1 / 2)) = Finset.univ := by
      refine Finset.filter_true_of_mem fun i _ => ⟨1, ?_⟩
      norm_num [realGeo]
    refine Eq.trans ?_ (congrArg Finset.card this)
    congr
  · rw [hl x h1 h2, hr]
    norm_num

/-- Non-vacuity of the theorem on the inside of bundles: the point of the map itself lies on no border. -/
example : ∀ i, ¬ Spec.BorderAxis realGeo.r realPoint i := by
  rintro i ⟨n, hn⟩
  simp only [realPoint, realGeo] at hn
  have h1 : (0 : ℝ) < n := by linarith
  have h2 : (n : ℝ) < 1 := by linarith
  have h3 : 0 < n := by exact_mod_cast h1
  have h4 : n < 1 := by exact_mod_cast h2
  omega

end Ndt
