import Verif.Spec.VisibleLess
import Verif.Props.ScanAllocates
import Verif.Props.AxesVisible
import Verif.Props.Evidence

/-! Property theorems C117: a visibility-aware insertion records no more than a plain one. -/

namespace Ndt
open St Spec

section
variable {K : Type} [Field K] [LinearOrder K] [IsStrictOrderedRing K] [FloorRing K] {d : Nat}

section generic
variable {W E : Type} [AddCommMonoid W]

omit [IsStrictOrderedRing K] [FloorRing K] in
theorem SameScan.hits {s s' : Scan K d W} (h : SameScan s s') (g : Geo K d) (k : Kind d) : hits g k s' = hits g k s := by
  unfold Spec.hits acceptedPoints; rw [h.pose, h.cloud]

omit [IsStrictOrderedRing K] in
theorem SameScan.hitBundles {s s' : Scan K d W} (h : SameScan s s') (g : Geo K d) (k : Kind d) : hitBundles g k s' = hitBundles g k s := by
  unfold Spec.hitBundles; rw [SameScan.hits h]

omit [IsStrictOrderedRing K] [FloorRing K] in
theorem SameScan.hitsIn {s s' : Scan K d W} (h : SameScan s s') (g : Geo K d) (k : Kind d) (b : Idx d) : hitsIn g k s' b = hitsIn g k s b := by
  unfold Spec.hitsIn; rw [SameScan.hits h]

omit [IsStrictOrderedRing K] [FloorRing K] in
theorem SameScan.rayOf {s s' : Scan K d W} (h : SameScan s s') (g : Geo K d) (k : Kind d) (b : Idx d) : rayOf g k s' b = rayOf g k s b := by
  unfold Spec.rayOf; rw [SameScan.hitsIn h, h.ray, h.pose]

omit [IsStrictOrderedRing K] in
theorem SameScan.freeBy {s s' : Scan K d W} (h : SameScan s s') (fl : Flavour K d W E) (skip : Bool) (g : Geo K d) (k : Kind d) (c : Nat) (i : Idx d) :
    Ndt.freeBy fl skip g k s' c i = Ndt.freeBy fl skip g k s c i := by
  unfold Ndt.freeBy; rw [SameScan.hitBundles h]
  refine Finset.sum_congr rfl fun b _ => ?_
  rw [SameScan.hitsIn h, SameScan.rayOf h]

variable [PartialOrder W] [IsOrderedAddMonoid W]

omit [IsStrictOrderedRing K] in
theorem freeBy_true_le (fl : Flavour K d W E) (hpos : ∀ s : Multiset (Pt K d), 0 ≤ fl.amount (s.map fl.sample)) (skip : Bool) (g : Geo K d) (k : Kind d) (s : Scan K d W) (c : Nat) (i : Idx d) :
    0 ≤ freeBy fl true g k s c i ∧ freeBy fl true g k s c i ≤ freeBy fl skip g k s c i := by
  unfold freeBy
  constructor
  · exact Finset.sum_nonneg fun b _ => nsmul_nonneg (hpos _) _
  · refine Finset.sum_le_sum fun b _ => nsmul_le_nsmul_left (hpos _) ?_
    refine List.Sublist.length_le (List.monotone_filter_right _ fun x hx => ?_)
    simp only [decide_eq_true_eq] at hx ⊢
    exact ⟨hx.1, hx.2.1, fun _ => hx.2.2 trivial⟩

theorem unchecked_contribution (fl : Flavour K d W E) (hmean : ∀ s : Multiset (Pt K d), fl.mean (s.map fl.sample) = Spec.meanOf s)
    (hpos : ∀ s : Multiset (Pt K d), 0 ≤ fl.amount (s.map fl.sample)) (k : Kind d) (g : Geo K d) (hr : 0 < g.r)
    (defRay : Pt K d → Pt K d → List (Idx d)) (exp : Occ W E → Bool) (st st' t t' : St k.backend (Occ W E)) (hst : OccReachable fl k g defRay exp st) (hst' : OccReachable fl k g defRay exp st')
    (op op' : OccMapOp K d W E) (ho : Unchecked op op') (h : occStep fl g k.dyn defRay exp op st = some t) (h' : occStep fl g k.dyn defRay exp op' st' = some t')
    (c : Nat) (hc : c < 2 ^ d) (i : Idx d)
    (hle : ((st.content c i).getD Occ.new).samples ≤ ((st'.content c i).getD Occ.new).samples ∧ ((st.content c i).getD Occ.new).free ≤ ((st'.content c i).getD Occ.new).free) :
    ((t.content c i).getD Occ.new).samples ≤ ((t'.content c i).getD Occ.new).samples ∧ ((t.content c i).getD Occ.new).free ≤ ((t'.content c i).getD Occ.new).free := by
  obtain ⟨o, h1, h2⟩ := step_contribution fl hmean k g hr defRay exp st t hst op h
  obtain ⟨o', h1', h2'⟩ := step_contribution fl hmean k g hr defRay exp st' t' hst' op' h'
  obtain ⟨a1, a2⟩ := h2 c hc i
  obtain ⟨b1, b2⟩ := h2' c hc i
  rw [a1, a2, b1, b2]
  cases ho with
  | core op op' => exact ⟨add_le_add hle.1 le_rfl, add_le_add hle.2 le_rfl⟩
  | @insert s s' hs =>
    have e : hitsBy (W := W) (E := E) g k c i (.insert s', o') = hitsBy (W := W) (E := E) g k c i (.insert s, o) := by
      obtain rfl : o = _ := h1
      obtain rfl : o' = _ := h1'
      show hitsOn g k s' (Spec.hitBundles g k s') c i = hitsOn g k s (Spec.hitBundles g k s) c i
      unfold hitsOn
      rw [SameScan.hits hs, SameScan.hitBundles hs]
    rw [e]
    refine ⟨add_le_add hle.1 le_rfl, add_le_add hle.2 (le_of_eq ?_)⟩
    exact (SameScan.freeBy hs fl _ g k c i).symm
  | @visible s s' occ vm hs =>
    constructor
    · refine add_le_add hle.1 (Multiset.map_le_map ?_)
      obtain rfl : o' = _ := h1'
      show hitsOn g k s o.1 c i ≤ hitsOn g k s' (Spec.hitBundles g k s') c i
      rw [hitsOn_all g hr k s' c i, SameScan.hits hs]
      exact hitsOn_le g k s o.1 c i
    · refine add_le_add hle.2 ?_
      show (if o.2 then freeBy fl true g k s c i else 0) ≤ freeBy fl fl.eraseHits g k s' c i
      rw [SameScan.freeBy hs]
      have := freeBy_true_le fl hpos fl.eraseHits g k s c i
      split
      · exact this.2
      · exact this.1.trans this.2

theorem unchecked_run (fl : Flavour K d W E) (hmean : ∀ s : Multiset (Pt K d), fl.mean (s.map fl.sample) = Spec.meanOf s)
    (hpos : ∀ s : Multiset (Pt K d), 0 ≤ fl.amount (s.map fl.sample)) (k : Kind d) (g : Geo K d) (hr : 0 < g.r)
    (defRay : Pt K d → Pt K d → List (Idx d)) (exp : Occ W E → Bool) (c : Nat) (hc : c < 2 ^ d) (i : Idx d) (ops ops' : List (OccMapOp K d W E)) (ho : List.Forall₂ Unchecked ops ops') :
    ∀ (st st' t t' : St k.backend (Occ W E)), OccReachable fl k g defRay exp st → OccReachable fl k g defRay exp st' →
    occRun fl g k.dyn defRay exp ops st = some t → occRun fl g k.dyn defRay exp ops' st' = some t' →
    (((st.content c i).getD Occ.new).samples ≤ ((st'.content c i).getD Occ.new).samples ∧ ((st.content c i).getD Occ.new).free ≤ ((st'.content c i).getD Occ.new).free) →
    ((t.content c i).getD Occ.new).samples ≤ ((t'.content c i).getD Occ.new).samples ∧ ((t.content c i).getD Occ.new).free ≤ ((t'.content c i).getD Occ.new).free := by
  induction ho with
  | nil =>
    intro st st' t t' _ _ h h' hle
    cases h; cases h'
    exact hle
  | @cons op op' l l' ho _ ih =>
    intro st st' t t' hst hst' h h' hle
    obtain ⟨u, hu, h⟩ := Option.bind_eq_some_iff.1 (show (occStep fl g k.dyn defRay exp op st).bind (occRun fl g k.dyn defRay exp l) = some t from h)
    obtain ⟨u', hu', h'⟩ := Option.bind_eq_some_iff.1 (show (occStep fl g k.dyn defRay exp op' st').bind (occRun fl g k.dyn defRay exp l') = some t' from h')
    have hru : OccReachable fl k g defRay exp u := hst.later (ops := [op]) (by show (occStep fl g k.dyn defRay exp op st).bind _ = _; rw [hu]; rfl)
    have hru' : OccReachable fl k g defRay exp u' := hst'.later (ops := [op']) (by show (occStep fl g k.dyn defRay exp op' st').bind _ = _; rw [hu']; rfl)
    exact ih u u' t t' hru hru' h h' (unchecked_contribution fl hmean hpos k g hr defRay exp st st' u u' hst hst' op op' ho hu hu' c hc i hle)

omit [Field K] [LinearOrder K] [IsStrictOrderedRing K] [FloorRing K] [AddCommMonoid W] [PartialOrder W] [IsOrderedAddMonoid W] in
theorem pass_members (v : Finset (Idx d) → Idx d → Option Bool) (H : Finset (Idx d)) : ∀ (l : List (Idx d)) (S : Finset (Idx d)), (∀ b ∈ l, b ∈ H) → S ⊆ H → (Spec.pass v l S).1 ⊆ H
  | [], _, _, h => h
  | b :: l, S, hl, h => by
    have hl' : ∀ x ∈ l, x ∈ H := fun x hx => hl x (List.mem_cons_of_mem _ hx)
    unfold Spec.pass
    split
    · exact h
    · exact pass_members v H l _ hl' (Finset.insert_subset (hl b List.mem_cons_self) h)
    · exact pass_members v H l _ hl' h

omit [PartialOrder W] [IsOrderedAddMonoid W] in
theorem unchecked_bundles (fl : Flavour K d W E) (hmean : ∀ s : Multiset (Pt K d), fl.mean (s.map fl.sample) = Spec.meanOf s) (k : Kind d) (g : Geo K d) (hr : 0 < g.r)
    (defRay : Pt K d → Pt K d → List (Idx d)) (exp : Occ W E → Bool) (ops ops' : List (OccMapOp K d W E)) (ho : List.Forall₂ Unchecked ops ops') :
    (∀ op ∈ ops, ScanOp op) → ∀ (st st' t t' : St k.backend (Occ W E)), OccReachable fl k g defRay exp st → OccReachable fl k g defRay exp st' →
    occRun fl g k.dyn defRay exp ops st = some t → occRun fl g k.dyn defRay exp ops' st' = some t' →
    (∀ b ∈ st.bundleIndices, b ∈ st'.bundleIndices) → ∀ b ∈ t.bundleIndices, b ∈ t'.bundleIndices := by
  induction ho with
  | nil =>
    intro _ st st' t t' _ _ h h' hle
    cases h; cases h'
    exact hle
  | @cons op op' l l' ho _ ih =>
    intro hsc st st' t t' hst hst' h h' hle
    obtain ⟨u, hu, h⟩ := Option.bind_eq_some_iff.1 (show (occStep fl g k.dyn defRay exp op st).bind (occRun fl g k.dyn defRay exp l) = some t from h)
    obtain ⟨u', hu', h'⟩ := Option.bind_eq_some_iff.1 (show (occStep fl g k.dyn defRay exp op' st').bind (occRun fl g k.dyn defRay exp l') = some t' from h')
    have hru : OccReachable fl k g defRay exp u := hst.later (ops := [op]) (by show (occStep fl g k.dyn defRay exp op st).bind _ = _; rw [hu]; rfl)
    have hru' : OccReachable fl k g defRay exp u' := hst'.later (ops := [op']) (by show (occStep fl g k.dyn defRay exp op' st').bind _ = _; rw [hu']; rfl)
    refine ih (fun o m => hsc o (List.mem_cons_of_mem _ m)) u u' t t' hru hru' h h' ?_
    have touch : ∀ {s s' : Scan K d W}, SameScan s s' → ∀ b, Touches g k s b → Touches g k s' b := by
      intro s s' hs b hb
      unfold Touches at hb ⊢
      rw [SameScan.hitBundles hs]
      rcases hb with hb | ⟨hv, e, he, hb⟩
      · exact Or.inl hb
      · exact Or.inr ⟨hv, e, he, by rw [SameScan.rayOf hs]; exact hb⟩
    cases ho with
    | core op op' => exact (hsc _ List.mem_cons_self).elim
    | @insert s s' hs =>
      intro b hb
      rw [scan_allocates fl hmean k g hr defRay exp st' u' hst' s' hu']
      rcases (scan_allocates fl hmean k g hr defRay exp st u hst s hu b).1 hb with hb | hb
      · exact Or.inl (hle b hb)
      · exact Or.inr (touch hs b hb)
    | @visible s s' occ vm hs =>
      intro b hb
      rw [scan_allocates fl hmean k g hr defRay exp st' u' hst' s' hu']
      obtain ⟨ll, ⟨hl, hm⟩, -⟩ := C29_hit_bundles_order k g hr s
      have e := (visible_exact fl hmean k g hr defRay exp st u hst s occ vm hu ll hl hm _ _ rfl).2
      have hb' : b ∈ u.abs.allocated := (mem_allocated_iff _ _).2 ((mem_bundleIndices _ _ hru.rinv.inv b).1 hb)
      rw [e] at hb'
      rcases hb' with (hb' | hb') | hb'
      · exact Or.inl (hle b ((mem_bundleIndices _ _ hst.rinv.inv b).2 ((mem_allocated_iff _ _).1 hb')))
      · exact Or.inr (touch hs b (Or.inl (pass_members _ _ ll ∅ (fun x hx => (hm x).1 hx) (by simp) hb')))
      · exact Or.inr (touch hs b (Or.inr ⟨hb'.2.1, hb'.2.2.2⟩))

end generic

/-- **C117** (occupancy maps). Take two occupancy maps and run on them the same scans, the first one with the visibility check for some of them and the second one without; bundle accesses and expansions in between are arbitrary.
Every distribution of the first map has no sample that it has not in the second one, and no more misses. -/
theorem C117_occupancy_less (k : Kind d) (g : Geo K d) (hr : 0 < g.r) (defRay : Pt K d → Pt K d → List (Idx d)) (exp : Occ Nat (Pt K d) → Bool) (ops ops' : List (OccMapOp K d Nat (Pt K d)))
    (ho : List.Forall₂ Unchecked ops ops') (st st' : St k.backend (Occ Nat (Pt K d))) (h : occRun (occFlavour K d) g k.dyn defRay exp ops (k.init _) = some st)
    (h' : occRun (occFlavour K d) g k.dyn defRay exp ops' (k.init _) = some st') (c : Nat) (hc : c < 2 ^ d) (i : Idx d) :
    ((st.content c i).getD Occ.new).samples ≤ ((st'.content c i).getD Occ.new).samples ∧ ((st.content c i).getD Occ.new).numOccupied ≤ ((st'.content c i).getD Occ.new).numOccupied ∧
    ((st.content c i).getD Occ.new).numFree ≤ ((st'.content c i).getD Occ.new).numFree := by
  have := unchecked_run (occFlavour K d) occFlavour_mean (fun _ => Nat.zero_le _) k g hr defRay exp c hc i ops ops' ho _ _ st st' ⟨[], rfl⟩ ⟨[], rfl⟩ h h' ⟨le_rfl, le_rfl⟩
  refine ⟨this.1, ?_, this.2⟩
  rw [Occ.numOccupied_eq, Occ.numOccupied_eq]
  exact Multiset.card_le_card this.1

/-- **C117** (weighted maps). -/
theorem C117_weighted_less (k : Kind d) (g : Geo K d) (hr : 0 < g.r) (defRay : Pt K d → Pt K d → List (Idx d)) (exp : Occ K (Pt K d × K) → Bool) (ops ops' : List (OccMapOp K d K (Pt K d × K)))
    (ho : List.Forall₂ Unchecked ops ops') (st st' : St k.backend (Occ K (Pt K d × K))) (h : occRun (weightedFlavour K d) g k.dyn defRay exp ops (k.init _) = some st)
    (h' : occRun (weightedFlavour K d) g k.dyn defRay exp ops' (k.init _) = some st') (c : Nat) (hc : c < 2 ^ d) (i : Idx d) :
    ((st.content c i).getD Occ.new).samples ≤ ((st'.content c i).getD Occ.new).samples ∧ ((st.content c i).getD Occ.new).weightOccupied ≤ ((st'.content c i).getD Occ.new).weightOccupied ∧
    ((st.content c i).getD Occ.new).numFree ≤ ((st'.content c i).getD Occ.new).numFree := by
  have := unchecked_run (weightedFlavour K d) weightedFlavour_mean (fun s => by rw [weightedFlavour_amount]; exact Nat.cast_nonneg _) k g hr defRay exp c hc i ops ops' ho _ _ st st' ⟨[], rfl⟩ ⟨[], rfl⟩ h h' ⟨le_rfl, le_rfl⟩
  have hw : ∀ (ops : List (OccMapOp K d K (Pt K d × K))) (st : St k.backend (Occ K (Pt K d × K))), occRun (weightedFlavour K d) g k.dyn defRay exp ops (k.init _) = some st →
      ((st.content c i).getD Occ.new).weightOccupied = (((st.content c i).getD Occ.new).samples.card : K) := by
    intro ops st h
    obtain ⟨_, _, _, hx⟩ := history_exact (weightedFlavour K d) weightedFlavour_mean k g hr defRay exp ops st h
    have e := (hx c hc i).1
    have e2 : ((st.content c i).getD Occ.new).weightOccupied = (((st.content c i).getD Occ.new).samples.map Prod.snd).sum := by
      generalize (st.content c i).getD Occ.new = o
      unfold Occ.weightOccupied Occ.samples
      cases o.data <;> simp
    rw [e2, e]
    exact (weightedFlavour_amount _).trans (by rw [Multiset.card_map])
  refine ⟨this.1, ?_, this.2⟩
  rw [hw ops st h, hw ops' st' h', Nat.cast_le]
  exact Multiset.card_le_card this.1

/-- **C117** (bundles, occupancy maps). If nothing but the scans allocates bundles, the first map has no bundle that the second one has not. -/
theorem C117_occupancy_bundles (k : Kind d) (g : Geo K d) (hr : 0 < g.r) (defRay : Pt K d → Pt K d → List (Idx d)) (exp : Occ Nat (Pt K d) → Bool) (ops ops' : List (OccMapOp K d Nat (Pt K d)))
    (ho : List.Forall₂ Unchecked ops ops') (hs : ∀ op ∈ ops, ScanOp op) (st st' : St k.backend (Occ Nat (Pt K d))) (h : occRun (occFlavour K d) g k.dyn defRay exp ops (k.init _) = some st)
    (h' : occRun (occFlavour K d) g k.dyn defRay exp ops' (k.init _) = some st') : ∀ b ∈ st.bundleIndices, b ∈ st'.bundleIndices :=
  unchecked_bundles (occFlavour K d) occFlavour_mean k g hr defRay exp ops ops' ho hs _ _ st st' ⟨[], rfl⟩ ⟨[], rfl⟩ h h' fun _ hb => hb

/-- **C117** (bundles, weighted maps). -/
theorem C117_weighted_bundles (k : Kind d) (g : Geo K d) (hr : 0 < g.r) (defRay : Pt K d → Pt K d → List (Idx d)) (exp : Occ K (Pt K d × K) → Bool) (ops ops' : List (OccMapOp K d K (Pt K d × K)))
    (ho : List.Forall₂ Unchecked ops ops') (hs : ∀ op ∈ ops, ScanOp op) (st st' : St k.backend (Occ K (Pt K d × K))) (h : occRun (weightedFlavour K d) g k.dyn defRay exp ops (k.init _) = some st)
    (h' : occRun (weightedFlavour K d) g k.dyn defRay exp ops' (k.init _) = some st') : ∀ b ∈ st.bundleIndices, b ∈ st'.bundleIndices :=
  unchecked_bundles (weightedFlavour K d) weightedFlavour_mean k g hr defRay exp ops ops' ho hs _ _ st st' ⟨[], rfl⟩ ⟨[], rfl⟩ h h' fun _ hb => hb

end

/-! ### A concrete case -/

/-- the scan of `C106_visible_refuted`, inserted without the visibility check -/
def cornerPlain {W E : Type} [AddCommMonoid W] (fl : Flavour ℚ 2 W E) : Option (St pieceKind.backend (Occ W E)) :=
  occRun fl unitGeo pieceKind.dyn (fun _ _ => []) (fun _ => true) [.insert (cornerScan W)] (pieceKind.init _)

theorem cornerPlain_runs : (cornerPlain (occFlavour ℚ 2)).isSome = true ∧ (cornerPlain (weightedFlavour ℚ 2)).isSome = true := by decide +kernel

/-- Non-vacuity of the theorems, and the order is strict: the point of the scan behind the other two is recorded by `insert` only, in a bundle that only `insert` allocates. -/
theorem C117_less_sample :
    (List.Forall₂ Unchecked [.insertVisible (cornerScan Nat) (some anyHit) (some clearVm)] [(.insert (cornerScan Nat) : OccMapOp ℚ 2 Nat (Pt ℚ 2))] ∧
      ∃ t t' : St pieceKind.backend (Occ Nat (Pt ℚ 2)), cornerRun (occFlavour ℚ 2) pieceKind unitGeo (cornerScan Nat) = some t ∧ cornerPlain (occFlavour ℚ 2) = some t' ∧
        ((t.content 0 ![1, 0]).getD Occ.new).numOccupied = 0 ∧ ((t'.content 0 ![1, 0]).getD Occ.new).numOccupied = 1 ∧ ((t.content 0 ![0, 1]).getD Occ.new).numOccupied = 2 ∧
        ![2, 1] ∉ t.bundleIndices ∧ ![2, 1] ∈ t'.bundleIndices) ∧
    (List.Forall₂ Unchecked [.insertVisible (cornerScan ℚ) (some anyHit) (some clearVm)] [(.insert (cornerScan ℚ) : OccMapOp ℚ 2 ℚ (Pt ℚ 2 × ℚ))] ∧
      ∃ t t' : St pieceKind.backend (Occ ℚ (Pt ℚ 2 × ℚ)), cornerRun (weightedFlavour ℚ 2) pieceKind unitGeo (cornerScan ℚ) = some t ∧ cornerPlain (weightedFlavour ℚ 2) = some t' ∧
        ((t.content 0 ![1, 0]).getD Occ.new).weightOccupied = 0 ∧ ((t'.content 0 ![1, 0]).getD Occ.new).weightOccupied = 1) :=
  ⟨⟨.cons (.visible _ _ ⟨rfl, rfl, rfl⟩) .nil, _, _, (Option.some_get corner_runs).symm, (Option.some_get cornerPlain_runs.1).symm, by decide +kernel, by decide +kernel, by decide +kernel, by decide +kernel, by decide +kernel⟩,
    ⟨.cons (.visible _ _ ⟨rfl, rfl, rfl⟩) .nil, _, _, (Option.some_get corner_runs_weighted).symm, (Option.some_get cornerPlain_runs.2).symm, by decide +kernel, by decide +kernel⟩⟩

end Ndt
