import Verif.Spec.Windows
import Verif.Props.MapKinds
import Verif.Props.ScanOrder
import Verif.Props.Frame

/-!
Property theorems C112: a static map is a window of the dynamic map of the same scans.
-/

namespace Ndt
open St Spec

section
variable {K : Type} [Field K] [LinearOrder K] [IsStrictOrderedRing K] [FloorRing K] {d : Nat} {W E : Type}

omit [IsStrictOrderedRing K] [FloorRing K] in
open scoped Classical in
theorem acceptedPoints_window (g : Geo K d) {k k' : Kind d} (hw : Window g.r k k') (pose : Pt K d → Pt K d) (cloud : List (Pt K d)) :
    acceptedPoints g k pose cloud = (acceptedPoints g k' pose cloud).filter (Region g.r k) := by
  unfold acceptedPoints
  rw [Multiset.filter_filter]
  exact Multiset.filter_congr fun p _ => ⟨fun h => ⟨h, hw p h⟩, fun h => h.1⟩

omit [IsStrictOrderedRing K] [FloorRing K] in
open scoped Classical in
theorem filter_list_sum (P : Pt K d → Prop) : ∀ l : List (Multiset (Pt K d)), l.sum.filter P = (l.map fun m => m.filter P).sum
  | [] => rfl
  | m :: l => by rw [List.sum_cons, Multiset.filter_add, filter_list_sum P l, List.map_cons, List.sum_cons]

omit [IsStrictOrderedRing K] [FloorRing K] in
open scoped Classical in
theorem accepted_window (g : Geo K d) {k k' : Kind d} (hw : Window g.r k k') (ops ops' : List (GridOp K d)) (hs : gridScans ops = gridScans ops') :
    accepted g k ops = (accepted g k' ops').filter (Region g.r k) := by
  rw [accepted_scans, accepted_scans, hs, filter_list_sum, List.map_map]
  exact congrArg List.sum (List.map_congr_left fun s _ => acceptedPoints_window g hw s.1 s.2)

open scoped Classical in
/-- **C112** (contents of NDT maps). Insert the same scans into two maps of the same resolution and origin, one of which covers a part of the area of the other one, with any lookups, allocations and expansions in between. Then each
distribution of the smaller map consists of exactly those points of the corresponding distribution of the larger one that lie in the area of the smaller map. -/
theorem C112_contents (k k' : Kind d) (g : Geo K d) (hr : 0 < g.r) (hw : Window g.r k k') (exp exp' : Multiset (Pt K d) → Bool) (ops ops' : List (GridOp K d)) (hs : gridScans ops = gridScans ops')
    (st : St k.backend (Multiset (Pt K d))) (h : gridRun g k.dyn exp ops (k.init _) = some st) (st' : St k'.backend (Multiset (Pt K d))) (h' : gridRun g k'.dyn exp' ops' (k'.init _) = some st')
    (c : Nat) (hc : c < 2 ^ d) (i : Idx d) :
    (st.content c i).getD 0 = ((st'.content c i).getD 0).filter (Region g.r k) ∧ (CellWithin g.r k c i → (st.content c i).getD 0 = (st'.content c i).getD 0) := by
  have e : (st.content c i).getD 0 = ((st'.content c i).getD 0).filter (Region g.r k) := by
    rw [C10_contents_exact k g hr exp ops st h c hc i, C10_contents_exact k' g hr exp' ops' st' h' c hc i, accepted_window g hw ops ops' hs, Multiset.filter_filter, Multiset.filter_filter]
    exact Multiset.filter_congr fun p _ => and_comm
  refine ⟨e, fun hi => e.trans (Multiset.filter_eq_self.2 fun p hp => hi p ?_)⟩
  rw [C10_contents_exact k' g hr exp' ops' st' h' c hc i] at hp
  exact (Multiset.mem_filter.1 hp).2

open scoped Classical in
/-- **C112** (samples of NDT maps). After neighbourhood allocation, both maps return the same samples, with and without interpolation, at all points whose cells lie in the area of the smaller map. -/
theorem C112_samples (k k' : Kind d) (g : Geo K d) (hr : 0 < g.r) (hw : Window g.r k k') (exp : Multiset (Pt K d) → Bool) (hexp : exp 0 = false) (ops ops' : List (GridOp K d))
    (hs : gridScans ops = gridScans ops') (more more' : List (CoreOp d))
    (st : St k.backend (Multiset (Pt K d))) (h : gridRun g k.dyn exp (expandedHistory ops more) (k.init _) = some st)
    (st' : St k'.backend (Multiset (Pt K d))) (h' : gridRun g k'.dyn exp (expandedHistory ops' more') (k'.init _) = some st')
    (dens : Multiset (Pt K d) → Pt K d → K) (hd : ∀ s q, exp s = false → dens s q = 0) (p : Pt K d) (hp : CellsWithin g.r k (g.toMap p)) (x x' : K) :
    (sampleNNAt g k.dyn dens p st = some x → sampleNNAt g k'.dyn dens p st' = some x' → x = x') ∧
    (sampleBilinearAt g k.dyn dens p st = some x → sampleBilinearAt g k'.dyn dens p st' = some x' → x = x') := by
  have hin : ∀ c, InCell g.r c (generateIndex (toBundleIndex g.r (g.toMap p)) c) (g.toMap p) := fun c => (C01_point_in_selected_cell hr _ c _).1 rfl
  have hreg : Region g.r k (g.toMap p) := hp 0 (Nat.two_pow_pos d) _ (hin 0) _ (hin 0)
  obtain ⟨a1, a2⟩ := C90_field_of_points k g hr exp hexp ops more st h dens hd p hreg x
  obtain ⟨b1, b2⟩ := C90_field_of_points k' g hr exp hexp ops' more' st' h' dens hd p (hw _ hreg) x'
  have e : ∀ c < 2 ^ d, cellMates g.r (accepted g k ops) c (g.toMap p) = cellMates g.r (accepted g k' ops') c (g.toMap p) := by
    intro c hc
    unfold cellMates
    rw [accepted_window g hw ops ops' hs, Multiset.filter_filter]
    exact Multiset.filter_congr fun a _ => ⟨fun h => h.1, fun ⟨i, hi, ha⟩ => ⟨⟨i, hi, ha⟩, hp c hc i hi a ha⟩⟩
  constructor
  · intro hx hx'
    rw [a1 hx, b1 hx']
    exact congrArg (· / _) (Finset.sum_congr rfl fun c hc => by rw [e c (Finset.mem_range.1 hc)])
  · intro hx hx'
    rw [a2 hx _ hin, b2 hx' _ hin]
    exact Finset.sum_congr rfl fun c hc => by rw [e c (Finset.mem_range.1 hc)]

/-! ### occupancy maps -/

omit [FloorRing K] in
theorem validBundle_region {r : K} (hr : 0 < r) (k : Kind d) (b : Idx d) (p : Pt K d) (hp : InBundle r b p) : ValidBundle k b ↔ Region r k p := by
  cases k with
  | dynamic _ _ => exact Iff.rfl
  | static size lo =>
    refine forall_congr' fun a => ?_
    obtain ⟨h1, h2⟩ := hp a
    have hr2 : 0 < r / 2 := by linarith
    constructor
    · rintro ⟨h3, h4⟩
      have h3' : (lo a : K) ≤ b a := by exact_mod_cast h3
      have h4' : (b a : K) + 1 ≤ (lo a : K) + 2 * (size a : K) - 1 := by exact_mod_cast (by omega : b a + 1 ≤ lo a + 2 * (size a : Int) - 1)
      exact ⟨(mul_le_mul_of_nonneg_right h3' hr2.le).trans h1, h2.trans_le (mul_le_mul_of_nonneg_right h4' hr2.le)⟩
    · rintro ⟨h3, h4⟩
      have h3' := lt_of_mul_lt_mul_right (h3.trans_lt h2) hr2.le
      have h4' := lt_of_mul_lt_mul_right (h1.trans_lt h4) hr2.le
      have h3'' : lo a < b a + 1 := by exact_mod_cast h3'
      have h4'' : b a < lo a + 2 * (size a : Int) - 1 := by exact_mod_cast h4'
      exact ⟨by omega, h4''⟩

omit [FloorRing K] in
theorem inBundle_corner {r : K} (hr : 0 < r) (b : Idx d) : InBundle r b (fun a => (b a : K) * (r / 2)) := fun a => ⟨le_refl _, mul_lt_mul_of_pos_right (by linarith) (by linarith)⟩

omit [IsStrictOrderedRing K] [FloorRing K] in
open scoped Classical in
theorem hits_window (g : Geo K d) {k k' : Kind d} (hw : Window g.r k k') (s : Scan K d W) : hits g k s = (hits g k' s).filter (Region g.r k) := acceptedPoints_window g hw _ _

omit [FloorRing K] in
theorem hitsIn_window (g : Geo K d) (hr : 0 < g.r) {k k' : Kind d} (hw : Window g.r k k') (s : Scan K d W) (b : Idx d) (hb : ValidBundle k b) : hitsIn g k s b = hitsIn g k' s b := by
  classical
  unfold hitsIn
  rw [hits_window g hw s, Multiset.filter_filter]
  exact Multiset.filter_congr fun p _ => ⟨fun h => h.1, fun h => ⟨h, (validBundle_region hr k b p h).1 hb⟩⟩

variable [AddCommMonoid W]

theorem hitBundles_window (g : Geo K d) (hr : 0 < g.r) {k k' : Kind d} (hw : Window g.r k k') (s : Scan K d W) (b : Idx d) : b ∈ hitBundles g k s ↔ ValidBundle k b ∧ b ∈ hitBundles g k' s := by
  classical
  rw [mem_hitBundles_iff g hr, mem_hitBundles_iff g hr]
  constructor
  · intro h
    have hb : ValidBundle k b := by
      obtain ⟨p, hp⟩ := Multiset.exists_mem_of_ne_zero h
      unfold hitsIn at hp
      obtain ⟨h1, h2⟩ := Multiset.mem_filter.1 hp
      rw [hits_window g hw s] at h1
      exact (validBundle_region hr k b p h2).2 (Multiset.mem_filter.1 h1).2
    exact ⟨hb, hitsIn_window g hr hw s b hb ▸ h⟩
  · rintro ⟨hb, h⟩
    rw [hitsIn_window g hr hw s b hb]
    exact h

omit [FloorRing K] in
theorem validBundle_window (g : Geo K d) (hr : 0 < g.r) {k k' : Kind d} (hw : Window g.r k k') (b : Idx d) (hb : ValidBundle k b) : ValidBundle k' b :=
  (validBundle_region hr k' b _ (inBundle_corner hr b)).2 (hw _ ((validBundle_region hr k b _ (inBundle_corner hr b)).1 hb))

/-- the misses of a scan in the smaller map -/
theorem misses_window (skip : Bool) (g : Geo K d) (hr : 0 < g.r) {k k' : Kind d} (hw : Window g.r k k') (s : Scan K d W) (c : Nat) (i : Idx d) :
    misses skip g k s c i ≤ misses skip g k' s c i ∧ (CellWithin g.r k c i → (∀ p ∈ hits g k' s, Region g.r k p) → misses skip g k s c i = misses skip g k' s c i) := by
  classical
  have hray : ∀ b ∈ hitBundles g k s, rayOf g k s b = rayOf g k' s b ∧ hitsIn g k s b = hitsIn g k' s b := by
    intro b hb
    have e := hitsIn_window g hr hw s b ((hitBundles_window g hr hw s b).1 hb).1
    exact ⟨by unfold rayOf; rw [e], e⟩
  have hsub : hitBundles g k s ⊆ hitBundles g k' s := fun b hb => ((hitBundles_window g hr hw s b).1 hb).2
  unfold misses
  constructor
  · refine (Finset.sum_le_sum fun b hb => ?_).trans (Finset.sum_le_sum_of_subset hsub)
    obtain ⟨e1, e2⟩ := hray b hb
    rw [e1, e2]
    refine Nat.mul_le_mul_right _ (List.Sublist.length_le (List.monotone_filter_right _ fun x hx => ?_))
    simp only [decide_eq_true_eq] at hx ⊢
    exact ⟨validBundle_window g hr hw x hx.1, hx.2.1, fun hs hx' => hx.2.2 hs ((hitBundles_window g hr hw s x).2 ⟨hx.1, hx'⟩)⟩
  · intro hi hall
    have heq : hitBundles g k s = hitBundles g k' s := by
      refine Finset.Subset.antisymm hsub fun b hb => (hitBundles_window g hr hw s b).2 ⟨?_, hb⟩
      rw [mem_hitBundles_iff g hr] at hb
      obtain ⟨p, hp⟩ := Multiset.exists_mem_of_ne_zero hb
      unfold hitsIn at hp
      obtain ⟨h1, h2⟩ := Multiset.mem_filter.1 hp
      exact (validBundle_region hr k b p h2).2 (hall p h1)
    rw [← heq]
    refine Finset.sum_congr rfl fun b hb => ?_
    obtain ⟨e1, e2⟩ := hray b hb
    rw [e1, e2]
    refine congrArg (fun l : List (Idx d) => l.length * (hitsIn g k' s b).card) (List.filter_congr fun x _ => ?_)
    rw [decide_eq_decide]
    have hv : BundleInCell g.r x c i → ValidBundle k x := fun hx => (validBundle_region hr k x _ (inBundle_corner hr x)).2 (hi _ (hx _ (inBundle_corner hr x)))
    exact ⟨fun h => ⟨validBundle_window g hr hw x h.1, h.2⟩, fun h => ⟨hv h.2.1, h.2⟩⟩

open scoped Classical in
theorem run_hits_window (g : Geo K d) {k k' : Kind d} (hw : Window g.r k k') (ops ops' : List (OccMapOp K d W E)) (hs : tracedScans ops = tracedScans ops') (c : Nat) (i : Idx d) :
    (((scansOf ops).map fun s => hits g k s).sum).filter (InCell g.r c i) = ((((scansOf ops').map fun s => hits g k' s).sum).filter (InCell g.r c i)).filter (Region g.r k) := by
  rw [hits_traced g k ops, hits_traced g k' ops', hs, Multiset.filter_filter]
  rw [show ((tracedScans ops').map fun t => hits g k (plainScan t)).sum = (((tracedScans ops').map fun t => hits g k' (plainScan t)).sum).filter (Region g.r k) by
    rw [filter_list_sum, List.map_map]
    exact congrArg List.sum (List.map_congr_left fun s _ => hits_window g hw _)]
  rw [Multiset.filter_filter]
  exact Multiset.filter_congr fun p _ => and_comm

theorem run_misses_window (skip : Bool) (g : Geo K d) (hr : 0 < g.r) {k k' : Kind d} (hw : Window g.r k k') (ops ops' : List (OccMapOp K d W E)) (hs : tracedScans ops = tracedScans ops') (c : Nat) (i : Idx d) :
    ((scansOf ops).map fun s => misses skip g k s c i).sum ≤ ((scansOf ops').map fun s => misses skip g k' s c i).sum ∧
    (CellWithin g.r k c i → (∀ s ∈ scansOf ops', ∀ p ∈ hits g k' s, Region g.r k p) →
      ((scansOf ops).map fun s => misses skip g k s c i).sum = ((scansOf ops').map fun s => misses skip g k' s c i).sum) := by
  rw [misses_traced skip g k c i ops, hs, ← misses_traced skip g k c i ops']
  exact ⟨List.sum_le_sum fun s _ => (misses_window skip g hr hw s c i).1,
    fun hi hall => congrArg List.sum (List.map_congr_left fun s h => (misses_window skip g hr hw s c i).2 hi (hall s h))⟩

end

section
variable {K : Type} [Field K] [LinearOrder K] [IsStrictOrderedRing K] [FloorRing K] {d : Nat}

open scoped Classical in
/-- **C112** (occupancy maps). Insert the same scans with the same line iterators into two occupancy maps, one of which covers a part of the area of the other one. Then each distribution of the smaller map has exactly those hits of the
corresponding distribution of the larger one that lie in the area of the smaller map, and no more misses. In cells within the smaller map it has the same hits, and the same number of misses if no hit lies outside of the smaller map. -/
theorem C112_occupancy_partial (k k' : Kind d) (g : Geo K d) (hr : 0 < g.r) (hw : Window g.r k k') (ray ray' : Pt K d → Pt K d → List (Idx d)) (exp exp' : Occ Nat (Pt K d) → Bool)
    (ops ops' : List (OccMapOp K d Nat (Pt K d))) (hp : ∀ op ∈ ops, op.Plain) (hp' : ∀ op ∈ ops', op.Plain) (hs : tracedScans ops = tracedScans ops')
    (st : St k.backend (Occ Nat (Pt K d))) (h : occRun (occFlavour K d) g k.dyn ray exp ops (k.init _) = some st)
    (st' : St k'.backend (Occ Nat (Pt K d))) (h' : occRun (occFlavour K d) g k'.dyn ray' exp' ops' (k'.init _) = some st') (c : Nat) (hc : c < 2 ^ d) (i : Idx d) :
    let o := (st.content c i).getD Occ.new
    let o' := (st'.content c i).getD Occ.new
    o.samples = o'.samples.filter (Region g.r k) ∧ o.numFree ≤ o'.numFree ∧
    (CellWithin g.r k c i → o.samples = o'.samples ∧ ((∀ s ∈ scansOf ops', ∀ p ∈ hits g k' s, Region g.r k p) → o.numFree = o'.numFree)) := by
  intro o o'
  obtain ⟨a1, a2, _⟩ := C27_occupancy_counts k g hr ray exp ops hp st h c hc i
  obtain ⟨b1, b2, _⟩ := C27_occupancy_counts k' g hr ray' exp' ops' hp' st' h' c hc i
  obtain ⟨m1, m2⟩ := run_misses_window false g hr hw ops ops' hs c i
  have e : o.samples = o'.samples.filter (Region g.r k) := by
    rw [a2, b2]
    exact run_hits_window g hw ops ops' hs c i
  refine ⟨e, by rw [a1, b1]; exact m1, fun hi => ⟨e.trans (Multiset.filter_eq_self.2 fun p hpm => hi p ?_), fun hall => by rw [a1, b1]; exact m2 hi hall⟩⟩
  rw [b2] at hpm
  exact (Multiset.mem_filter.1 hpm).2

open scoped Classical in
/-- **C112** (weighted occupancy maps). As `C112_occupancy_partial`. -/
theorem C112_weighted_partial (k k' : Kind d) (g : Geo K d) (hr : 0 < g.r) (hw : Window g.r k k') (ray ray' : Pt K d → Pt K d → List (Idx d)) (exp exp' : Occ K (Pt K d × K) → Bool)
    (ops ops' : List (OccMapOp K d K (Pt K d × K))) (hp : ∀ op ∈ ops, op.Plain) (hp' : ∀ op ∈ ops', op.Plain) (hs : tracedScans ops = tracedScans ops')
    (st : St k.backend (Occ K (Pt K d × K))) (h : occRun (weightedFlavour K d) g k.dyn ray exp ops (k.init _) = some st)
    (st' : St k'.backend (Occ K (Pt K d × K))) (h' : occRun (weightedFlavour K d) g k'.dyn ray' exp' ops' (k'.init _) = some st') (c : Nat) (hc : c < 2 ^ d) (i : Idx d) :
    let o := (st.content c i).getD Occ.new
    let o' := (st'.content c i).getD Occ.new
    o.samples = o'.samples.filter (fun x => Region g.r k x.1) ∧ o.numFree ≤ o'.numFree ∧
    (CellWithin g.r k c i → o.samples = o'.samples ∧ ((∀ s ∈ scansOf ops', ∀ p ∈ hits g k' s, Region g.r k p) → o.numFree = o'.numFree)) := by
  intro o o'
  obtain ⟨a1, a2, _⟩ := C27_weighted_counts k g hr ray exp ops hp st h c hc i
  obtain ⟨b1, b2, _⟩ := C27_weighted_counts k' g hr ray' exp' ops' hp' st' h' c hc i
  obtain ⟨m1, m2⟩ := run_misses_window true g hr hw ops ops' hs c i
  have e : o.samples = o'.samples.filter (fun x => Region g.r k x.1) := by
    rw [a2, b2, run_hits_window g hw ops ops' hs c i, Multiset.filter_map]
    rfl
  refine ⟨e, by rw [a1, b1]; exact_mod_cast m1, fun hi => ⟨e.trans (Multiset.filter_eq_self.2 fun x hx => hi x.1 ?_), fun hall => by rw [a1, b1, m2 hi hall]⟩⟩
  rw [b2] at hx
  obtain ⟨p, hpm, rfl⟩ := Multiset.mem_map.1 hx
  exact (Multiset.mem_filter.1 hpm).2

end

section
variable {K : Type} [Field K] [LinearOrder K] [IsStrictOrderedRing K] [FloorRing K] {d : Nat} {W E M : Type} [AddCommMonoid W]

/-- the distribution of a cell is determined by its hits and misses -/
theorem occ_eq_of_counts (fl : Flavour K d W E) (k k' : Kind d) (g : Geo K d) (ray ray' : Pt K d → Pt K d → List (Idx d)) (exp exp' : Occ W E → Bool) (ops ops' : List (OccMapOp K d W E))
    (st : St k.backend (Occ W E)) (h : occRun fl g k.dyn ray exp ops (k.init _) = some st) (st' : St k'.backend (Occ W E)) (h' : occRun fl g k'.dyn ray' exp' ops' (k'.init _) = some st')
    (c : Nat) (hc : c < 2 ^ d) (i : Idx d) (e1 : ((st.content c i).getD Occ.new).samples = ((st'.content c i).getD Occ.new).samples)
    (e2 : ((st.content c i).getD Occ.new).numFree = ((st'.content c i).getD Occ.new).numFree) : (st.content c i).getD Occ.new = (st'.content c i).getD Occ.new := by
  have n : ((st.content c i).getD Occ.new).data = none ↔ ((st.content c i).getD Occ.new).samples = 0 := by
    cases hx : st.content c i with
    | none => exact ⟨fun _ => rfl, fun _ => rfl⟩
    | some o => exact C27_no_empty_distribution fl k g ray exp ops st h c hc i o hx
  have n' : ((st'.content c i).getD Occ.new).data = none ↔ ((st'.content c i).getD Occ.new).samples = 0 := by
    cases hx : st'.content c i with
    | none => exact ⟨fun _ => rfl, fun _ => rfl⟩
    | some o => exact C27_no_empty_distribution fl k' g ray' exp' ops' st' h' c hc i o hx
  generalize (st.content c i).getD Occ.new = o at *
  generalize (st'.content c i).getD Occ.new = o' at *
  have hdat : o.data = o'.data := by
    by_cases h0 : o.samples = 0
    · rw [n.2 h0, n'.2 (e1 ▸ h0)]
    · rw [data_of_samples o h0, data_of_samples o' (e1 ▸ h0), e1]
  cases o; cases o'
  simp only [Occ.numFree] at e2
  simp only at hdat
  rw [e2, hdat]

theorem window_field (fl : Flavour K d W E) (k k' : Kind d) (g : Geo K d) (hr : 0 < g.r) (hw : Window g.r k k') (ray ray' : Pt K d → Pt K d → List (Idx d)) (exp : Occ W E → Bool) (hexp : exp default = false)
    (ops ops' : List (OccMapOp K d W E))
    (s0 s1 st : St k.backend (Occ W E)) (h0 : occRun fl g k.dyn ray exp ops (k.init _) = some s0) (h1 : allocPartials k.dyn exp s0 = some s1) (more : List (CoreOp d)) (h : coreRun k.dyn exp more s1 = some st)
    (s0' s1' st' : St k'.backend (Occ W E)) (h0' : occRun fl g k'.dyn ray' exp ops' (k'.init _) = some s0') (h1' : allocPartials k'.dyn exp s0' = some s1') (more' : List (CoreOp d)) (h' : coreRun k'.dyn exp more' s1' = some st')
    (dens : Multiset E → Pt K d → K) (occ : M → Occ W E → K) (m : M) (hd : ∀ (o : Occ W E) s q, o.data = some s → exp o = false → dens s q = 0) (p : Pt K d) (hp : CellsWithin g.r k (g.toMap p))
    (e : ∀ c < 2 ^ d, ∀ i, CellWithin g.r k c i → ((s0.content c i).getD Occ.new) = (s0'.content c i).getD Occ.new) (x x' : K) :
    (occSampleNNAt g k.dyn dens occ p (some m) st = .ok (some x) → occSampleNNAt g k'.dyn dens occ p (some m) st' = .ok (some x') → x = x') ∧
    (occSampleBilinearAt g k.dyn dens occ p (some m) st = .ok (some x) → occSampleBilinearAt g k'.dyn dens occ p (some m) st' = .ok (some x') → x = x') := by
  have hin : ∀ c, InCell g.r c (generateIndex (toBundleIndex g.r (g.toMap p)) c) (g.toMap p) := fun c => (C01_point_in_selected_cell hr _ c _).1 rfl
  have hreg : Region g.r k (g.toMap p) := hp 0 (Nat.two_pow_pos d) _ (hin 0) _ (hin 0)
  obtain ⟨a1, a2⟩ := C90_occupancy_field fl k g hr ray exp hexp s0 s1 st ⟨ops, h0⟩ h1 more h dens occ m hd p hreg x _ hin
  obtain ⟨b1, b2⟩ := C90_occupancy_field fl k' g hr ray' exp hexp s0' s1' st' ⟨ops', h0'⟩ h1' more' h' dens occ m hd p (hw _ hreg) x' _ hin
  have key : ∀ c < 2 ^ d, (s0.content c (generateIndex (toBundleIndex g.r (g.toMap p)) c)).bind (fun o => o.data.map fun s => dens s (g.toMap p) * occ m o) =
      (s0'.content c (generateIndex (toBundleIndex g.r (g.toMap p)) c)).bind (fun o => o.data.map fun s => dens s (g.toMap p) * occ m o) := by
    intro c hc
    have he := e c hc _ (hp c hc _ (hin c))
    have hb : ∀ x : Option (Occ W E), x.bind (fun o => o.data.map fun s => dens s (g.toMap p) * occ m o) = (x.getD Occ.new).data.map fun s => dens s (g.toMap p) * occ m (x.getD Occ.new) := by
      intro x; cases x <;> rfl
    rw [hb, hb, he]
  constructor
  · intro hx hx'
    rw [a1 hx, b1 hx']
    exact congrArg (· / _) (Finset.sum_congr rfl fun c hc => by rw [key c (Finset.mem_range.1 hc)])
  · intro hx hx'
    rw [a2 hx, b2 hx']
    exact Finset.sum_congr rfl fun c hc => by rw [key c (Finset.mem_range.1 hc)]

end

section
variable {K : Type} [Field K] [LinearOrder K] [IsStrictOrderedRing K] [FloorRing K] {d : Nat} {M : Type}

/-- **C112** (samples of occupancy maps). If no hit lies outside of the smaller map, both occupancy maps return the same samples after neighbourhood allocation, with and without interpolation, at all points whose cells lie in the area of the
smaller map. -/
theorem C112_occupancy_samples_partial (k k' : Kind d) (g : Geo K d) (hr : 0 < g.r) (hw : Window g.r k k') (ray ray' : Pt K d → Pt K d → List (Idx d)) (exp : Occ Nat (Pt K d) → Bool) (hexp : exp default = false)
    (ops ops' : List (OccMapOp K d Nat (Pt K d))) (hp : ∀ op ∈ ops, op.Plain) (hp' : ∀ op ∈ ops', op.Plain) (hs : tracedScans ops = tracedScans ops')
    (hall : ∀ s ∈ scansOf ops', ∀ p ∈ hits g k' s, Region g.r k p)
    (s0 s1 st : St k.backend (Occ Nat (Pt K d))) (h0 : occRun (occFlavour K d) g k.dyn ray exp ops (k.init _) = some s0) (h1 : allocPartials k.dyn exp s0 = some s1) (more : List (CoreOp d))
    (h : coreRun k.dyn exp more s1 = some st)
    (s0' s1' st' : St k'.backend (Occ Nat (Pt K d))) (h0' : occRun (occFlavour K d) g k'.dyn ray' exp ops' (k'.init _) = some s0') (h1' : allocPartials k'.dyn exp s0' = some s1') (more' : List (CoreOp d))
    (h' : coreRun k'.dyn exp more' s1' = some st')
    (dens : Multiset (Pt K d) → Pt K d → K) (occ : M → Occ Nat (Pt K d) → K) (m : M) (hd : ∀ (o : Occ Nat (Pt K d)) s q, o.data = some s → exp o = false → dens s q = 0) (p : Pt K d)
    (hin : CellsWithin g.r k (g.toMap p)) (x x' : K) :
    (occSampleNNAt g k.dyn dens occ p (some m) st = .ok (some x) → occSampleNNAt g k'.dyn dens occ p (some m) st' = .ok (some x') → x = x') ∧
    (occSampleBilinearAt g k.dyn dens occ p (some m) st = .ok (some x) → occSampleBilinearAt g k'.dyn dens occ p (some m) st' = .ok (some x') → x = x') := by
  classical
  refine window_field (occFlavour K d) k k' g hr hw ray ray' exp hexp ops ops' s0 s1 st h0 h1 more h s0' s1' st' h0' h1' more' h' dens occ m hd p hin (fun c hc i hi => ?_) x x'
  obtain ⟨_, _, e⟩ := C112_occupancy_partial k k' g hr hw ray ray' exp exp ops ops' hp hp' hs s0 h0 s0' h0' c hc i
  exact occ_eq_of_counts (occFlavour K d) k k' g ray ray' exp exp ops ops' s0 h0 s0' h0' c hc i (e hi).1 ((e hi).2 hall)

/-- **C112** (samples of weighted occupancy maps). As `C112_occupancy_samples_partial`. -/
theorem C112_weighted_samples_partial (k k' : Kind d) (g : Geo K d) (hr : 0 < g.r) (hw : Window g.r k k') (ray ray' : Pt K d → Pt K d → List (Idx d)) (exp : Occ K (Pt K d × K) → Bool) (hexp : exp default = false)
    (ops ops' : List (OccMapOp K d K (Pt K d × K))) (hp : ∀ op ∈ ops, op.Plain) (hp' : ∀ op ∈ ops', op.Plain) (hs : tracedScans ops = tracedScans ops')
    (hall : ∀ s ∈ scansOf ops', ∀ p ∈ hits g k' s, Region g.r k p)
    (s0 s1 st : St k.backend (Occ K (Pt K d × K))) (h0 : occRun (weightedFlavour K d) g k.dyn ray exp ops (k.init _) = some s0) (h1 : allocPartials k.dyn exp s0 = some s1) (more : List (CoreOp d))
    (h : coreRun k.dyn exp more s1 = some st)
    (s0' s1' st' : St k'.backend (Occ K (Pt K d × K))) (h0' : occRun (weightedFlavour K d) g k'.dyn ray' exp ops' (k'.init _) = some s0') (h1' : allocPartials k'.dyn exp s0' = some s1') (more' : List (CoreOp d))
    (h' : coreRun k'.dyn exp more' s1' = some st')
    (dens : Multiset (Pt K d × K) → Pt K d → K) (occ : M → Occ K (Pt K d × K) → K) (m : M) (hd : ∀ (o : Occ K (Pt K d × K)) s q, o.data = some s → exp o = false → dens s q = 0) (p : Pt K d)
    (hin : CellsWithin g.r k (g.toMap p)) (x x' : K) :
    (occSampleNNAt g k.dyn dens occ p (some m) st = .ok (some x) → occSampleNNAt g k'.dyn dens occ p (some m) st' = .ok (some x') → x = x') ∧
    (occSampleBilinearAt g k.dyn dens occ p (some m) st = .ok (some x) → occSampleBilinearAt g k'.dyn dens occ p (some m) st' = .ok (some x') → x = x') := by
  classical
  refine window_field (weightedFlavour K d) k k' g hr hw ray ray' exp hexp ops ops' s0 s1 st h0 h1 more h s0' s1' st' h0' h1' more' h' dens occ m hd p hin (fun c hc i hi => ?_) x x'
  obtain ⟨_, _, e⟩ := C112_weighted_partial k k' g hr hw ray ray' exp exp ops ops' hp hp' hs s0 h0 s0' h0' c hc i
  exact occ_eq_of_counts (weightedFlavour K d) k k' g ray ray' exp exp ops ops' s0 h0 s0' h0' c hc i (e hi).1 ((e hi).2 hall)

end

/-- **C112** (occupancies). A smaller map knows less about free space: if a miss is evidence for free space (`logFree ≤ logPrior`), then in every cell within it the occupancy is at least the one in the larger map, and it is the same if no hit lies
outside of the smaller map (as long as the counters have not overflowed). -/
theorem C112_occupancies_partial {d : Nat} (k k' : Kind d) (g : Geo ℝ d) (hr : 0 < g.r) (hw : Window g.r k k') (ray ray' : Pt ℝ d → Pt ℝ d → List (Idx d)) (exp exp' : Occ Nat (Pt ℝ d) → Bool)
    (ops ops' : List (OccMapOp ℝ d Nat (Pt ℝ d))) (hp : ∀ op ∈ ops, op.Plain) (hp' : ∀ op ∈ ops', op.Plain) (hs : tracedScans ops = tracedScans ops')
    (st : St k.backend (Occ Nat (Pt ℝ d))) (h : occRun (occFlavour ℝ d) g k.dyn ray exp ops (k.init _) = some st)
    (st' : St k'.backend (Occ Nat (Pt ℝ d))) (h' : occRun (occFlavour ℝ d) g k'.dyn ray' exp' ops' (k'.init _) = some st') (c : Nat) (hc : c < 2 ^ d) (i : Idx d) (hi : CellWithin g.r k c i) (m : Ivm)
    (ho : ((st'.content c i).getD Occ.new).numFree + ((st'.content c i).getD Occ.new).numOccupied ≤ 2 ^ 64) :
    let o := (st.content c i).getD Occ.new
    let o' := (st'.content c i).getD Occ.new
    (m.logFree ≤ m.logPrior → o'.occupancy m ≤ o.occupancy m) ∧ ((∀ s ∈ scansOf ops', ∀ p ∈ hits g k' s, Region g.r k p) → o.occupancy m = o'.occupancy m) := by
  intro o o'
  obtain ⟨_, h1, h2⟩ := C112_occupancy_partial k k' g hr hw ray ray' exp exp' ops ops' hp hp' hs st h st' h' c hc i
  obtain ⟨h2, h3⟩ := h2 hi
  have n : o.data = none ↔ o.samples = 0 := by
    show ((st.content c i).getD Occ.new).data = none ↔ ((st.content c i).getD Occ.new).samples = 0
    cases hx : st.content c i with
    | none => exact ⟨fun _ => rfl, fun _ => rfl⟩
    | some o => exact C27_no_empty_distribution (occFlavour ℝ d) k g ray exp ops st h c hc i o hx
  have n' : o'.data = none ↔ o'.samples = 0 := by
    show ((st'.content c i).getD Occ.new).data = none ↔ ((st'.content c i).getD Occ.new).samples = 0
    cases hx : st'.content c i with
    | none => exact ⟨fun _ => rfl, fun _ => rfl⟩
    | some o => exact C27_no_empty_distribution (occFlavour ℝ d) k' g ray' exp' ops' st' h' c hc i o hx
  change o.numFree ≤ o'.numFree at h1
  change o.samples = o'.samples at h2
  change _ → o.numFree = o'.numFree at h3
  change o'.numFree + o'.numOccupied ≤ 2 ^ 64 at ho
  generalize o = o at *
  generalize o' = o' at *
  by_cases h0 : o.samples = 0
  · unfold Occ.occupancy
    rw [n.2 h0, n'.2 (h2 ▸ h0)]
    exact ⟨fun _ => le_refl _, fun _ => rfl⟩
  · have h0' : o'.samples ≠ 0 := h2 ▸ h0
    have hcard : 0 < o'.samples.card := Multiset.card_pos.2 h0'
    rw [Occ.numOccupied_eq] at ho
    unfold Occ.occupancy
    rw [data_of_samples o h0, data_of_samples o' h0', h2]
    simp only
    unfold Occ.numFree at ho h1 h3
    rw [wrapMinusOne_eq hcard ho, wrapMinusOne_eq hcard (by omega), Nat.cast_sub (by omega), Nat.cast_sub (by omega), Nat.cast_add, Nat.cast_add, Nat.cast_one]
    constructor
    · intro hm
      have h1' : (o.free : ℝ) ≤ o'.free := by exact_mod_cast h1
      refine logOdds_mono ?_
      nlinarith [mul_nonneg (sub_nonneg.2 h1') (sub_nonneg.2 hm)]
    · intro ha
      rw [h3 ha]

/-! ### Concrete cases -/

/-- a map of the same geometry as `fieldKind` with four cells instead of two -/
def wideKind : Kind 1 := .static (fun _ => 4) (fun _ => -1)

theorem field_region (p : Pt ℚ 1) : Region (1 : ℚ) fieldKind p ↔ -1 / 2 ≤ p 0 ∧ p 0 < 1 := by
  show (∀ a : Fin 1, ((-1 : Int) : ℚ) * (1 / 2) ≤ p a ∧ p a < (((-1 : Int) : ℚ) + 2 * ((2 : Nat) : ℚ) - 1) * (1 / 2)) ↔ _
  rw [Fin.forall_fin_one]
  norm_num

theorem wide_region (p : Pt ℚ 1) : Region (1 : ℚ) wideKind p ↔ -1 / 2 ≤ p 0 ∧ p 0 < 3 := by
  show (∀ a : Fin 1, ((-1 : Int) : ℚ) * (1 / 2) ≤ p a ∧ p a < (((-1 : Int) : ℚ) + 2 * ((4 : Nat) : ℚ) - 1) * (1 / 2)) ↔ _
  rw [Fin.forall_fin_one]
  norm_num

theorem field_window : Window (1 : ℚ) fieldKind wideKind := fun p h => by
  rw [field_region] at h
  rw [wide_region]
  exact ⟨h.1, h.2.trans (by norm_num)⟩

theorem field_cell_within : CellWithin (1 : ℚ) fieldKind 0 (fun _ : Fin 1 => 0) := fun p h => by
  obtain ⟨h1, h2⟩ := h 0
  rw [field_region]
  simp only [shift, Nat.zero_testBit] at h1 h2
  norm_num at h1 h2
  exact ⟨by linarith, h2⟩

/-- a point in the smaller map and one beyond it; the ray to the latter passes the cell of the former -/
def beyondCloud : List (Pt ℚ 1) := [fun _ => 1 / 5, fun _ => 5 / 2]
def beyondRay : Pt ℚ 1 → Pt ℚ 1 → List (Idx 1) := fun _ e => if e 0 < 1 then [] else [fun _ => 0, fun _ => 1, fun _ => 2, fun _ => 3]
def beyondScan (W : Type) : Scan ℚ 1 W := { pose := id, cloud := beyondCloud, ray := beyondRay, order := id, order_perm := fun l => List.Perm.refl l }
def beyondO (k : Kind 1) : Option (St k.backend (Occ Nat (Pt ℚ 1))) := occRun (occFlavour ℚ 1) fieldGeo k.dyn beyondRay fieldOccExp [.insert (beyondScan Nat)] (k.init _)
def beyondW (k : Kind 1) : Option (St k.backend (Occ ℚ (Pt ℚ 1 × ℚ))) := occRun (weightedFlavour ℚ 1) fieldGeo k.dyn beyondRay (fun o => decide (0 < o.samples.card)) [.insert (beyondScan ℚ)] (k.init _)

theorem beyondO_runs : (beyondO fieldKind).isSome = true ∧ (beyondO wideKind).isSome = true := by constructor <;> decide +kernel
theorem beyondW_runs : (beyondW fieldKind).isSome = true ∧ (beyondW wideKind).isSome = true := by constructor <;> decide +kernel

/-- **C112** (refuted for free space). A ray that ends outside of the smaller map frees nothing in it, not even the cells within it that the ray passes: here the same cell has the same hit in both occupancy maps, but no miss in the smaller and two
misses in the larger one. In the weighted maps the cell has free weight 1 in the larger map only. -/
theorem C112_free_space_refuted : ∃ st st' stW stW', beyondO fieldKind = some st ∧ beyondO wideKind = some st' ∧ beyondW fieldKind = some stW ∧ beyondW wideKind = some stW' ∧
    Window fieldGeo.r fieldKind wideKind ∧ CellWithin fieldGeo.r fieldKind 0 (fun _ : Fin 1 => 0) ∧
    ((st.content 0 fun _ => 0).getD Occ.new).samples.card = 1 ∧ ((st'.content 0 fun _ => 0).getD Occ.new).samples.card = 1 ∧
    ((st.content 0 fun _ => 0).getD Occ.new).numFree = 0 ∧ ((st'.content 0 fun _ => 0).getD Occ.new).numFree = 2 ∧
    ((stW.content 0 fun _ => 0).getD Occ.new).numFree = 0 ∧ ((stW'.content 0 fun _ => 0).getD Occ.new).numFree = 1 :=
  ⟨_, _, _, _, (Option.some_get beyondO_runs.1).symm, (Option.some_get beyondO_runs.2).symm, (Option.some_get beyondW_runs.1).symm, (Option.some_get beyondW_runs.2).symm, field_window, field_cell_within,
    by decide +kernel, by decide +kernel, by decide +kernel, by decide +kernel, by decide +kernel, by decide +kernel⟩

def windowN : Option (St fieldKind.backend (Multiset (Pt ℚ 1))) := gridRun fieldGeo false fieldExp (expandedHistory [.insert id [fun _ => 1 / 5]] []) (fieldKind.init _)
theorem windowN_runs : windowN.isSome = true := by decide +kernel

/-- Non-vacuity: a static map and a dynamic one with the same scan, whose point lies well inside of both. -/
example : ∃ st st', windowN = some st ∧
    gridRun fieldGeo true fieldExp (expandedHistory [.insert id [fun _ => 1 / 5]] []) ((Kind.dynamic 0 0).init (Multiset (Pt ℚ 1))) = some st' ∧
    Window fieldGeo.r fieldKind (Kind.dynamic 0 0) ∧ CellsWithin fieldGeo.r fieldKind (fieldGeo.toMap fun _ => 1 / 5) ∧
    sampleNNAt fieldGeo false fieldDens (fun _ => 1 / 5) st = some 1 := by
  obtain ⟨st', h2⟩ := field_dynamic_runs fieldGeo (fun p hp a => by
    fin_cases a
    show |⌊p 0 * (1 / (1 / 2 * 1))⌋| ≤ 10
    rw [hp]; decide +kernel)
  refine ⟨_, st', (Option.some_get windowN_runs).symm, h2, fun _ _ => trivial, ?_, by decide +kernel⟩
  intro c hc i hi p hp
  rw [show fieldGeo.r = 1 from rfl] at *
  rw [field_region]
  obtain ⟨a1, a2⟩ := hi 0
  obtain ⟨b1, b2⟩ := hp 0
  have e : fieldGeo.toMap (fun _ => 1 / 5) 0 = 1 / 5 := rfl
  rw [e] at a1 a2
  have hc' : c < 2 := hc
  obtain rfl | rfl : c = 0 ∨ c = 1 := by omega
  · simp only [shift, Nat.zero_testBit] at a1 a2 b1 b2
    norm_num at a1 a2 b1 b2
    have : (i 0 : ℚ) < 1 := by linarith
    have h0 : i 0 < 1 := by exact_mod_cast this
    have : (-1 : ℚ) < i 0 := by linarith
    have h3 : -1 < i 0 := by exact_mod_cast this
    have h4 : i 0 = 0 := by omega
    rw [h4] at b1 b2
    norm_num at b1 b2
    exact ⟨by linarith, by linarith⟩
  · simp only [shift, Fin.val_zero, Nat.testBit_one_zero] at a1 a2 b1 b2
    norm_num at a1 a2 b1 b2
    have : (i 0 : ℚ) < 1 := by linarith
    have h0 : i 0 < 1 := by exact_mod_cast this
    have : (-1 : ℚ) < i 0 := by linarith
    have h3 : -1 < i 0 := by exact_mod_cast this
    have h4 : i 0 = 0 := by omega
    rw [h4] at b1 b2
    norm_num at b1 b2
    exact ⟨by linarith, by linarith⟩

def wideO : Option (St wideKind.backend (Occ Nat (Pt ℚ 1))) := occRun (occFlavour ℚ 1) fieldGeo wideKind.dyn kindRay fieldOccExp [.insert (kindScan Nat)] (wideKind.init _)
theorem wideO_runs : wideO.isSome = true := by decide +kernel

/-- Non-vacuity: all hits of a scan lie in the smaller map. -/
example : ∃ st st', kindO = some st ∧ wideO = some st' ∧
    (∀ p ∈ hits fieldGeo wideKind (kindScan Nat), Region fieldGeo.r fieldKind p) ∧
    ((st.content 0 fun _ => 0).getD Occ.new).numFree = 1 ∧ ((st'.content 0 fun _ => 0).getD Occ.new).numFree = 1 := by
  classical
  refine ⟨_, _, (Option.some_get kindO_runs).symm, (Option.some_get wideO_runs).symm, fun p hp => ?_, by decide +kernel, by decide +kernel⟩
  unfold hits acceptedPoints at hp
  have hm := (Multiset.mem_filter.1 hp).1
  have : p = (fun _ => 1 / 5) ∨ p = (fun _ => 3 / 5) := by simpa [kindScan, kindCloud, fieldGeo] using hm
  rw [show fieldGeo.r = 1 from rfl, field_region]
  rcases this with rfl | rfl <;> norm_num

end Ndt
