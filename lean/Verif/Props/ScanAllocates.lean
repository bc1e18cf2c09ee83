import Verif.Props.Support
import Verif.Props.ScanOrder
import Verif.Props.ByteSize
import Verif.Props.MapKinds

/-!
Property theorems C89, C113: the bundles a scan allocates in occupancy maps, the growth of occupancy maps, and samples at the hits of a scan.
-/

namespace Ndt
open St Spec

section
variable {K : Type} [Field K] [LinearOrder K] [IsStrictOrderedRing K] [FloorRing K] {d : Nat}

section
variable {W E : Type} [AddCommMonoid W]

theorem scan_allocates (fl : Flavour K d W E) (hmean : ∀ s : Multiset (Pt K d), fl.mean (s.map fl.sample) = Spec.meanOf s) (k : Kind d) (g : Geo K d) (hr : 0 < g.r)
    (defRay : Pt K d → Pt K d → List (Idx d)) (exp : Occ W E → Bool) (st st' : St k.backend (Occ W E)) (hst : OccReachable fl k g defRay exp st) (s : Scan K d W)
    (h : occInsert fl g k.dyn s st = some st') (b : Idx d) : b ∈ st'.bundleIndices ↔ b ∈ st.bundleIndices ∨ Spec.Touches g k s b := by
  have hI := hst.rinv
  have hv : st.valid k.dyn = (k.init (Occ W E)).abs.valid k.dyn := funext hst.keeps.valid
  rw [occInsert_eq k.lawful fl g k.dyn s st hI, hv] at h
  obtain ⟨hI', _, _, hf, _⟩ := occAdd_spec k.lawful k.dyn _ st st' hI h
  rw [mem_bundleIndices k.lawful st' hI'.inv, ← mem_allocated_iff, Abs.mem_allocated, hf, mem_bundleIndices k.lawful st hI.inv, ← mem_allocated_iff, Abs.mem_allocated,
    ← mem_insertEffects fl hmean g hr k s b]
  split <;> simp_all

theorem occ_never_shrinks (fl : Flavour K d W E) (hmean : ∀ s : Multiset (Pt K d), fl.mean (s.map fl.sample) = Spec.meanOf s) (gb : Nat → Nat) (gb' : Nat) (g : Geo K d) (hr : 0 < g.r)
    (defRay : Pt K d → Pt K d → List (Idx d)) (exp : Occ W E → Bool) (st st' : St (octreeBackend d) (Occ W E)) (hst : OccReachable fl (.dynamic gb gb') g defRay exp st)
    (later : List (OccMapOp K d W E)) (h : occRun fl g true defRay exp later st = some st') (sz : MapSizes (Occ W E)) (sizeofBundle sizeofThis sizeofDist : Nat)
    (hB : ∀ b, sz.bundle.data b = sizeofBundle) (hD : sz.dist.data = Occ.byteSize sizeofThis sizeofDist) : st.getByteSize sz ≤ st'.getByteSize sz := by
  have hgrow := occ_samples_grow fl hmean (.dynamic gb gb') g hr defRay exp later st st' hst h
  obtain ⟨hI', hK⟩ := occRun_inv (octreeLawful d) fl g true defRay exp later st st' hst.rinv h
  obtain ⟨ops, hops⟩ := hst
  have hR := occ_reachable fl g (.dynamic gb gb') defRay exp ops _ st .init hops
  have hR' := occ_reachable fl g (.dynamic gb gb') defRay exp later st st' hR h
  refine C89_monotone st st' hR hR' (fun b hb => bundles_kept (k := .dynamic gb gb') hR.spec.1 hI' hK hb) sz sizeofBundle hB fun c i o hc ho => ?_
  rw [hD]
  have h1 := hgrow c hc i
  rw [ho] at h1
  unfold Occ.byteSize
  cases hx : o.data with
  | none => cases ((st'.content c i).getD default).data <;> simp
  | some s =>
    have h2 : o.samples ≠ 0 := fun hz => by
      have := (C27_no_empty_distribution fl (.dynamic gb gb') g defRay exp ops st hops c hc i o ho).2 hz
      rw [hx] at this; cases this
    have h3 : ((st'.content c i).getD Occ.new).samples ≠ 0 := fun hz => h2 (Multiset.le_zero.1 (hz ▸ h1))
    have h4 := data_of_samples _ h3
    rw [show ((st'.content c i).getD default).data = _ from h4]
    exact le_refl _

end

/-- **C89** (what scans allocate). Inserting a scan into an occupancy map allocates exactly the bundles that it touches: those with a hit and the covered bundles on its rays. -/
theorem C89_occupancy_scan_allocates (k : Kind d) (g : Geo K d) (hr : 0 < g.r) (defRay : Pt K d → Pt K d → List (Idx d)) (exp : Occ Nat (Pt K d) → Bool) (st st' : St k.backend (Occ Nat (Pt K d)))
    (hst : OccReachable (occFlavour K d) k g defRay exp st) (s : Scan K d Nat) (h : occInsert (occFlavour K d) g k.dyn s st = some st') (b : Idx d) :
    b ∈ st'.bundleIndices ↔ b ∈ st.bundleIndices ∨ Spec.Touches g k s b :=
  scan_allocates _ occFlavour_mean k g hr defRay exp st st' hst s h b

/-- **C89** (weighted occupancy maps). -/
theorem C89_weighted_scan_allocates (k : Kind d) (g : Geo K d) (hr : 0 < g.r) (defRay : Pt K d → Pt K d → List (Idx d)) (exp : Occ K (Pt K d × K) → Bool) (st st' : St k.backend (Occ K (Pt K d × K)))
    (hst : OccReachable (weightedFlavour K d) k g defRay exp st) (s : Scan K d K) (h : occInsert (weightedFlavour K d) g k.dyn s st = some st') (b : Idx d) :
    b ∈ st'.bundleIndices ↔ b ∈ st.bundleIndices ∨ Spec.Touches g k s b :=
  scan_allocates _ weightedFlavour_mean k g hr defRay exp st st' hst s h b

/-- **C89** (growth of occupancy maps). No operation makes the reported size of an occupancy map smaller. -/
theorem C89_occupancy_never_shrinks (gb : Nat → Nat) (gb' : Nat) (g : Geo K d) (hr : 0 < g.r) (defRay : Pt K d → Pt K d → List (Idx d)) (exp : Occ Nat (Pt K d) → Bool)
    (st st' : St (octreeBackend d) (Occ Nat (Pt K d))) (hst : OccReachable (occFlavour K d) (.dynamic gb gb') g defRay exp st) (later : List (OccMapOp K d Nat (Pt K d)))
    (h : occRun (occFlavour K d) g true defRay exp later st = some st') (sz : MapSizes (Occ Nat (Pt K d))) (sizeofBundle sizeofThis sizeofDist : Nat)
    (hB : ∀ b, sz.bundle.data b = sizeofBundle) (hD : sz.dist.data = Occ.byteSize sizeofThis sizeofDist) : st.getByteSize sz ≤ st'.getByteSize sz :=
  occ_never_shrinks _ occFlavour_mean gb gb' g hr defRay exp st st' hst later h sz sizeofBundle sizeofThis sizeofDist hB hD

/-- **C89** (growth of weighted occupancy maps). -/
theorem C89_weighted_never_shrinks (gb : Nat → Nat) (gb' : Nat) (g : Geo K d) (hr : 0 < g.r) (defRay : Pt K d → Pt K d → List (Idx d)) (exp : Occ K (Pt K d × K) → Bool)
    (st st' : St (octreeBackend d) (Occ K (Pt K d × K))) (hst : OccReachable (weightedFlavour K d) (.dynamic gb gb') g defRay exp st) (later : List (OccMapOp K d K (Pt K d × K)))
    (h : occRun (weightedFlavour K d) g true defRay exp later st = some st') (sz : MapSizes (Occ K (Pt K d × K))) (sizeofBundle sizeofThis sizeofDist : Nat)
    (hB : ∀ b, sz.bundle.data b = sizeofBundle) (hD : sz.dist.data = Occ.byteSize sizeofThis sizeofDist) : st.getByteSize sz ≤ st'.getByteSize sz :=
  occ_never_shrinks _ weightedFlavour_mean gb gb' g hr defRay exp st st' hst later h sz sizeofBundle sizeofThis sizeofDist hB hD

end

section
variable {d : Nat}

theorem scan_hit_positive {W E : Type} [AddCommMonoid W] (fl : Flavour ℝ d W E) (hmean : ∀ s : Multiset (Pt ℝ d), fl.mean (s.map fl.sample) = Spec.meanOf s) (k : Kind d) (g : Geo ℝ d) (hr : 0 < g.r)
    (defRay : Pt ℝ d → Pt ℝ d → List (Idx d)) (exp : Occ W E → Bool) (st st' : St k.backend (Occ W E)) (hst : OccReachable fl k g defRay exp st) (s : Scan ℝ d W)
    (h : occInsert fl g k.dyn s st = some st') (enough : Multiset E → Prop) (h0 : ¬ enough 0) (hm : ∀ s t, s ≤ t → enough s → enough t) (dens : Multiset E → Pt ℝ d → ℝ)
    (hd : ∀ s q, 0 ≤ dens s q ∧ (0 < dens s q ↔ enough s)) (occ : Ivm → Occ W E → ℝ) (m : Ivm) (ho : ∀ o, o.data ≠ none → 0 < occ m o) (p : Pt ℝ d) (hp : g.toMap p ∈ Spec.hits g k s)
    (hs : Spec.Seen g.r (fun l => enough (l.map fl.sample)) (Spec.hits g k s) (g.toMap p)) (x : ℝ) (hx : occSampleNNAt g k.dyn dens occ p (some m) st' = .ok (some x)) : 0 < x := by
  classical
  have hstep : occStep fl g k.dyn defRay exp (.insert s) st = some st' := h
  have hst' : OccReachable fl k g defRay exp st' := by
    obtain ⟨ops, hops⟩ := hst
    refine ⟨ops ++ [.insert s], ?_⟩
    rw [occRun_append, hops]
    show (occStep fl g k.dyn defRay exp (.insert s) st).bind _ = _
    rw [hstep]; rfl
  have hb := (C01_bundle_contains_point hr (g.toMap p) (toBundleIndex g.r (g.toMap p))).1 rfl
  refine (((occ_support fl k g hr defRay exp st' hst' enough h0 dens hd occ m ho p _ hb x).1 hx).2).2 ⟨?_, ?_, ?_⟩
  · unfold Spec.hits Spec.acceptedPoints at hp
    exact (Multiset.mem_filter.1 hp).2
  · refine (scan_allocates fl hmean k g hr defRay exp st st' hst s h _).2 (Or.inr (Or.inl ?_))
    refine (mem_hitBundles_iff g hr k s _).2 fun hz => ?_
    have : g.toMap p ∈ Spec.hitsIn g k s (toBundleIndex g.r (g.toMap p)) := Multiset.mem_filter.2 ⟨hp, hb⟩
    rw [hz] at this
    exact Multiset.notMem_zero _ this
  · obtain ⟨c, hc, i, hi, he⟩ := hs
    refine ⟨c, hc, i, hi, hm _ _ ?_ he⟩
    have e := (insert_contribution fl hmean k g hr defRay exp st st' hst s h c hc i).1
    rw [e, hitsOn_all g hr k s c i]
    exact Multiset.le_add_left _ _

/-- **C113** (hits are found again). Directly after inserting a scan, sampling at one of its hits yields a positive value if one of the cells around the hit received enough hits from this scan, whatever
was stored before and however many rays crossed the cell. -/
theorem C113_occupancy_hit (k : Kind d) (g : Geo ℝ d) (hr : 0 < g.r) (defRay : Pt ℝ d → Pt ℝ d → List (Idx d)) (exp : Occ Nat (Pt ℝ d) → Bool) (st st' : St k.backend (Occ Nat (Pt ℝ d)))
    (hst : OccReachable (occFlavour ℝ d) k g defRay exp st) (s : Scan ℝ d Nat) (h : occInsert (occFlavour ℝ d) g k.dyn s st = some st')
    (enough : Multiset (Pt ℝ d) → Prop) (h0 : ¬ enough 0) (hm : ∀ s t, s ≤ t → enough s → enough t) (dens : Multiset (Pt ℝ d) → Pt ℝ d → ℝ)
    (hd : ∀ s q, 0 ≤ dens s q ∧ (0 < dens s q ↔ enough s)) (m : Ivm) (p : Pt ℝ d) (hp : g.toMap p ∈ Spec.hits g k s) (hs : Spec.Seen g.r enough (Spec.hits g k s) (g.toMap p)) (x : ℝ)
    (hx : occSampleNNAt g k.dyn dens Occ.occupancy p (some m) st' = .ok (some x)) : 0 < x := by
  refine scan_hit_positive _ occFlavour_mean k g hr defRay exp st st' hst s h enough h0 hm dens hd _ m (occupancy_pos m) p hp ?_ x hx
  simpa only [show (occFlavour ℝ d).sample = id from rfl, Multiset.map_id] using hs

/-- **C113** (hits are found again, weighted occupancy maps). -/
theorem C113_weighted_hit (k : Kind d) (g : Geo ℝ d) (hr : 0 < g.r) (defRay : Pt ℝ d → Pt ℝ d → List (Idx d)) (exp : Occ ℝ (Pt ℝ d × ℝ) → Bool) (st st' : St k.backend (Occ ℝ (Pt ℝ d × ℝ)))
    (hst : OccReachable (weightedFlavour ℝ d) k g defRay exp st) (s : Scan ℝ d ℝ) (h : occInsert (weightedFlavour ℝ d) g k.dyn s st = some st')
    (enough : Multiset (Pt ℝ d × ℝ) → Prop) (h0 : ¬ enough 0) (hm : ∀ s t, s ≤ t → enough s → enough t) (dens : Multiset (Pt ℝ d × ℝ) → Pt ℝ d → ℝ)
    (hd : ∀ s q, 0 ≤ dens s q ∧ (0 < dens s q ↔ enough s)) (m : Ivm) (p : Pt ℝ d) (hp : g.toMap p ∈ Spec.hits g k s)
    (hs : Spec.Seen g.r (fun l => enough (l.map fun a => (a, 1))) (Spec.hits g k s) (g.toMap p)) (x : ℝ) (hx : occSampleNNAt g k.dyn dens Occ.occupancyW p (some m) st' = .ok (some x)) : 0 < x :=
  scan_hit_positive _ weightedFlavour_mean k g hr defRay exp st st' hst s h enough h0 hm dens hd _ m (occupancyW_pos m) p hp hs x hx

end

/-! ### Concrete cases -/

theorem fieldDens_pos : ∀ s q, 0 ≤ fieldDens s q ∧ (0 < fieldDens s q ↔ fieldExp s = true) := by
  intro s q
  unfold fieldDens fieldExp
  rw [decide_eq_true_iff]
  exact ⟨Nat.cast_nonneg _, Nat.cast_pos⟩

/-- Non-vacuity (NDT maps): after inserting the point 1/5 and allocating its neighbourhood, the samples at 3/5 (cell 0 of grid 0), -1/5 and -1/2 (cell 0 of grid 1) are
positive; the interpolated sample at -1/2, on the border of the latter cell, is 0. -/
example : ∃ st, gridRun fieldGeo fieldKind.dyn fieldExp (expandedHistory [.insert id [fun _ => 1 / 5]] []) (fieldKind.init _) = some st ∧ fieldExp 0 = false ∧
    sampleNNAt fieldGeo fieldKind.dyn fieldDens (fun _ => 3 / 5) st = some (1 / 2) ∧ sampleNNAt fieldGeo fieldKind.dyn fieldDens (fun _ => -1 / 5) st = some (1 / 2) ∧
    sampleNNAt fieldGeo fieldKind.dyn fieldDens (fun _ => -1 / 2) st = some (1 / 2) ∧ sampleBilinearAt fieldGeo fieldKind.dyn fieldDens (fun _ => -1 / 2) st = some 0 :=
  ⟨_, (Option.some_get fieldPlain_runs).symm, by decide +kernel, by decide +kernel, by decide +kernel, by decide +kernel, by decide +kernel⟩

/-- **C113** (without neighbourhood allocation the area of positive samples is smaller): the point 3/5 lies in a cell with a point, but its sample is 0. -/
theorem C113_unexpanded_refuted : ∃ (ops : List (GridOp ℚ 1)) (st : St fieldKind.backend (Multiset (Pt ℚ 1))), gridRun fieldGeo fieldKind.dyn fieldExp ops (fieldKind.init _) = some st ∧
    (∀ s q, 0 ≤ fieldDens s q ∧ (0 < fieldDens s q ↔ fieldExp s = true)) ∧ Spec.Region fieldGeo.r fieldKind (fieldGeo.toMap fun _ => 3 / 5) ∧
    Spec.Seen fieldGeo.r (fun s => fieldExp s = true) (Spec.accepted fieldGeo fieldKind ops) (fieldGeo.toMap fun _ => 3 / 5) ∧
    sampleNNAt fieldGeo fieldKind.dyn fieldDens (fun _ => 3 / 5) st = some 0 := by
  classical
  have hreg : ∀ q : Pt ℚ 1, (fieldKind.init (Multiset (Pt ℚ 1))).abs.valid fieldKind.dyn (toBundleIndex fieldGeo.r q) = true → Spec.Region fieldGeo.r fieldKind q :=
    fun q h => (valid_iff_region (Multiset (Pt ℚ 1)) fieldGeo.r (by decide) fieldKind q).1 h
  refine ⟨[.insert id [fun _ => 1 / 5]], _, (Option.some_get fieldBare_runs).symm, fieldDens_pos, hreg _ (by decide +kernel), ⟨0, by norm_num, fun _ => 0, ?_, ?_⟩, by decide +kernel⟩
  · intro a
    norm_num [fieldGeo, shift]
  · have : (fun _ => 1 / 5 : Pt ℚ 1) ∈ (Spec.accepted fieldGeo fieldKind [.insert id [fun _ => 1 / 5]]).filter (Spec.InCell fieldGeo.r 0 fun _ => 0) := by
      refine Multiset.mem_filter.2 ⟨?_, fun a => by norm_num [fieldGeo, shift]⟩
      show _ ∈ Spec.acceptedPoints fieldGeo fieldKind id [fun _ => 1 / 5] + 0
      rw [add_zero]
      refine Multiset.mem_filter.2 ⟨by simp [fieldGeo], hreg _ (by decide +kernel)⟩
    refine decide_eq_true ?_
    exact Multiset.card_pos_iff_exists_mem.2 ⟨_, this⟩

/-- Non-vacuity (occupancy maps): the scan with one hit at 1/5, for any sensor model; one hit suffices for a distribution of this density. -/
example (m : Ivm) : ∃ st st' x, occRun (occFlavour ℝ 1) realGeo1 fieldKind.dyn (fun _ _ => []) (fun _ => false) [] (fieldKind.init _) = some st ∧
    occInsert (occFlavour ℝ 1) realGeo1 fieldKind.dyn (realScan Nat) st = some st' ∧ (fun _ => 1 / 5) ∈ Spec.hits realGeo1 fieldKind (realScan Nat) ∧
    occSampleNNAt realGeo1 fieldKind.dyn (fun s _ => (s.card : ℝ)) Occ.occupancy (fun _ => 1 / 5) (some m) st' = .ok (some x) ∧ 0 < x := by
  classical
  have hv : ∀ (D : Type) [Inhabited D] (j : Idx 1), (fieldKind.init D).abs.valid fieldKind.dyn j = true → (fieldKind.init D).abs.Good j := fun D _ j h => Kind.static_good _ _ _ h
  have hr : (0 : ℝ) < realGeo1.r := by norm_num [realGeo1]
  obtain ⟨st', h⟩ := occRun_total fieldKind.lawful (occFlavour ℝ 1) realGeo1 fieldKind.dyn (fun _ _ => []) (fun _ => false) [.insert (realScan Nat)] _ fieldKind.init_rinv (hv _)
  have hst' : OccReachable (occFlavour ℝ 1) fieldKind realGeo1 (fun _ _ => []) (fun _ => false) st' := ⟨_, h⟩
  obtain ⟨s1, e1, e2⟩ := Option.bind_eq_some_iff.1 (show (occStep _ _ _ _ _ _ _).bind _ = some st' from h)
  cases e2
  have hreg : Spec.Region realGeo1.r fieldKind (fun _ => 1 / 5) := by
    intro a
    norm_num [realGeo1]
  have hhit : (fun _ => 1 / 5) ∈ Spec.hits realGeo1 fieldKind (realScan Nat) := by
    unfold Spec.hits Spec.acceptedPoints
    exact Multiset.mem_filter.2 ⟨by simp [realScan, realGeo1], hreg⟩
  have hgood : st'.abs.Good (toBundleIndex realGeo1.r (realGeo1.toMap fun _ => 1 / 5)) :=
    (hst'.keeps.good _).2 (hv _ _ ((valid_iff_region _ realGeo1.r hr fieldKind _).2 hreg))
  obtain ⟨x, hx⟩ := (sampleWith_spec fieldKind.lawful fieldKind.dyn (fun _ => divCount ℝ 1) (occValue (fun s _ => (s.card : ℝ)) (Occ.occupancy m) (realGeo1.toMap fun _ => 1 / 5)) _ st' hst'.rinv).2 hgood
  refine ⟨_, st', x, rfl, e1, hhit, congrArg Except.ok hx, ?_⟩
  refine C113_occupancy_hit fieldKind realGeo1 hr (fun _ _ => []) (fun _ => false) _ st' ⟨[], rfl⟩ (realScan Nat) e1 (fun s => 0 < s.card) (by simp) (fun s t hst hs => lt_of_lt_of_le hs (Multiset.card_le_card hst))
    (fun s _ => (s.card : ℝ)) (fun s q => ⟨Nat.cast_nonneg _, Nat.cast_pos⟩) m (fun _ => 1 / 5) hhit ⟨0, by norm_num, fun _ => 0, fun a => by norm_num [realGeo1, shift], ?_⟩ x (congrArg Except.ok hx)
  exact Multiset.card_pos_iff_exists_mem.2 ⟨_, Multiset.mem_filter.2 ⟨hhit, fun a => by norm_num [realGeo1, shift]⟩⟩

end Ndt
