import Verif.Spec.Kinds
import Verif.Props.Field
import Verif.Props.OccHistory

/-!
Property theorems C105: NDT maps, occupancy maps and weighted occupancy maps built from the same scans.
-/

namespace Ndt
open St

section
variable {K : Type} [Field K] [LinearOrder K] [IsStrictOrderedRing K] [FloorRing K] {d : Nat} {W E : Type}

omit [IsStrictOrderedRing K] [FloorRing K] in
theorem accepted_scans (g : Geo K d) (k : Kind d) : ∀ ops : List (GridOp K d), Spec.accepted g k ops = ((Spec.gridScans ops).map fun s => Spec.acceptedPoints g k s.1 s.2).sum
  | [] => rfl
  | .insert pose cloud :: l => by
    show Spec.acceptedPoints g k pose cloud + Spec.accepted g k l = (((pose, cloud) :: Spec.gridScans l).map _).sum
    rw [accepted_scans g k l, List.map_cons, List.sum_cons]
  | .core _ :: l => accepted_scans g k l

omit [IsStrictOrderedRing K] [FloorRing K] in
theorem hits_scans (g : Geo K d) (k : Kind d) : ∀ ops : List (OccMapOp K d W E), (∀ op ∈ ops, op.Plain) → (∀ s ∈ Spec.occScans ops, ∀ p ∈ s.2, g.normal p = true) →
    ((scansOf ops).map fun s => Spec.hits g k s).sum = ((Spec.occScans ops).map fun s => Spec.acceptedPoints g k s.1 s.2).sum
  | [], _, _ => rfl
  | .insert s :: l, hp, hn => by
    have ih := hits_scans g k l (fun op ho => hp op (List.mem_cons_of_mem _ ho)) fun s hs => hn s (List.mem_cons_of_mem _ hs)
    show (((s :: scansOf l).map _).sum : Multiset (Pt K d)) = (((s.pose, s.cloud) :: Spec.occScans l).map _).sum
    rw [List.map_cons, List.map_cons, List.sum_cons, List.sum_cons, ih]
    refine congrArg (· + _) ?_
    unfold Spec.hits
    rw [List.filter_eq_self.2 fun p hp => hn (s.pose, s.cloud) List.mem_cons_self p hp]
  | .core _ :: l, hp, hn => hits_scans g k l (fun op ho => hp op (List.mem_cons_of_mem _ ho)) hn
  | .insertVisible s o v :: l, hp, _ => absurd (hp _ List.mem_cons_self) id

open scoped Classical in
theorem kinds_samples [AddCommMonoid W] (fl : Flavour K d W E) (k : Kind d) (g : Geo K d) (hr : 0 < g.r) (defRay : Pt K d → Pt K d → List (Idx d)) (exp : Occ W E → Bool) (opsO : List (OccMapOp K d W E))
    (hp : ∀ op ∈ opsO, op.Plain) (stO : St k.backend (Occ W E)) (hO : occRun fl g k.dyn defRay exp opsO (k.init _) = some stO) (ops : List (GridOp K d))
    (hs : Spec.occScans opsO = Spec.gridScans ops) (hn : ∀ s ∈ Spec.gridScans ops, ∀ p ∈ s.2, g.normal p = true) (c : Nat) (hc : c < 2 ^ d) (i : Idx d) :
    ((stO.content c i).getD Occ.new).samples = ((Spec.accepted g k ops).filter (Spec.InCell g.r c i)).map fl.sample := by
  rw [run_samples fl k g hr defRay exp opsO hp stO hO c hc i, hits_scans g k opsO hp (by rw [hs]; exact hn), hs, accepted_scans]

/-- **C105** (hits). Insert the same scans, with points that are normal in the sensor frame, into an NDT map, an occupancy map and a weighted occupancy map of the same class (static or dynamic) and
geometry, with `insert`, with any line iterators, any hash orders and any lookups, allocations and expansions in between. Then every distribution of the three maps has been fed the same points, with
weight 1 in the weighted map. -/
theorem C105_same_points_partial (k : Kind d) (g : Geo K d) (hr : 0 < g.r)
    (expN : Multiset (Pt K d) → Bool) (opsN : List (GridOp K d)) (stN : St k.backend (Multiset (Pt K d))) (hN : gridRun g k.dyn expN opsN (k.init _) = some stN)
    (rayO : Pt K d → Pt K d → List (Idx d)) (expO : Occ Nat (Pt K d) → Bool) (opsO : List (OccMapOp K d Nat (Pt K d))) (hpO : ∀ op ∈ opsO, op.Plain)
    (stO : St k.backend (Occ Nat (Pt K d))) (hO : occRun (occFlavour K d) g k.dyn rayO expO opsO (k.init _) = some stO)
    (rayW : Pt K d → Pt K d → List (Idx d)) (expW : Occ K (Pt K d × K) → Bool) (opsW : List (OccMapOp K d K (Pt K d × K))) (hpW : ∀ op ∈ opsW, op.Plain)
    (stW : St k.backend (Occ K (Pt K d × K))) (hW : occRun (weightedFlavour K d) g k.dyn rayW expW opsW (k.init _) = some stW)
    (hsO : Spec.occScans opsO = Spec.gridScans opsN) (hsW : Spec.occScans opsW = Spec.gridScans opsN) (hn : ∀ s ∈ Spec.gridScans opsN, ∀ p ∈ s.2, g.normal p = true)
    (c : Nat) (hc : c < 2 ^ d) (i : Idx d) :
    ((stO.content c i).getD Occ.new).samples = (stN.content c i).getD 0 ∧
    ((stW.content c i).getD Occ.new).samples = ((stN.content c i).getD 0).map (fun p => (p, 1)) ∧
    ((stW.content c i).getD Occ.new).weightOccupied = (((stO.content c i).getD Occ.new).numOccupied : K) := by
  classical
  have e1 := kinds_samples (occFlavour K d) k g hr rayO expO opsO hpO stO hO opsN hsO hn c hc i
  have e2 := kinds_samples (weightedFlavour K d) k g hr rayW expW opsW hpW stW hW opsN hsW hn c hc i
  rw [show (occFlavour K d).sample = id from rfl, Multiset.map_id] at e1
  have e3 := C10_contents_exact k g hr expN opsN stN hN c hc i
  refine ⟨by rw [e1, e3], by rw [e2, e3]; rfl, ?_⟩
  rw [Occ.numOccupied_eq, e1]
  have hw : ∀ o : Occ K (Pt K d × K), o.weightOccupied = (o.samples.map Prod.snd).sum := by
    intro o
    unfold Occ.weightOccupied Occ.samples
    cases o.data <;> simp
  rw [hw, e2, Multiset.map_map]
  show (Multiset.map (fun _ => (1 : K)) _).sum = _
  rw [Multiset.map_const', Multiset.sum_replicate, nsmul_eq_mul, mul_one]

omit [IsStrictOrderedRing K] in
open scoped Classical in
theorem allHits_le [AddCommMonoid W] (g : Geo K d) (k : Kind d) (c : Nat) (i : Idx d) : ∀ ops : List (OccMapOp K d W E), 
    (ops.map (Spec.allHits g k c i)).sum ≤ (((Spec.occScans ops).map fun s => Spec.acceptedPoints g k s.1 s.2).sum).filter (Spec.InCell g.r c i) := by
  have step : ∀ s : Scan K d W, (Spec.hits g k s).filter (Spec.InCell g.r c i) ≤ (Spec.acceptedPoints g k s.pose s.cloud).filter (Spec.InCell g.r c i) := by
    intro s
    refine Multiset.filter_le_filter _ ?_
    unfold Spec.hits Spec.acceptedPoints
    refine Multiset.filter_le_filter _ (Multiset.coe_le.2 (List.Sublist.subperm ?_))
    exact ((List.filter_sublist.map _).filter _).map _
  intro ops
  induction ops with
  | nil => exact le_refl _
  | cons op l ih =>
    cases op with
    | core _ =>
      rw [List.map_cons, List.sum_cons]
      exact (zero_add _).trans_le ih
    | insert s =>
      rw [List.map_cons, List.sum_cons]
      show _ ≤ Multiset.filter _ ((((s.pose, s.cloud) :: Spec.occScans l).map _).sum)
      rw [List.map_cons, List.sum_cons, Multiset.filter_add]
      exact add_le_add (step s) ih
    | insertVisible s _ _ =>
      rw [List.map_cons, List.sum_cons]
      show _ ≤ Multiset.filter _ ((((s.pose, s.cloud) :: Spec.occScans l).map _).sum)
      rw [List.map_cons, List.sum_cons, Multiset.filter_add]
      exact add_le_add (step s) ih

/-- **C105** (with visibility tests and any points). If some of the scans are inserted into the occupancy map with `insertVisible`, or points are not normal in the sensor frame, its distributions have been fed a part of the
points of the distributions of the NDT map, never others, and never more often. -/
theorem C105_never_more_points (k : Kind d) (g : Geo K d) (hr : 0 < g.r)
    (expN : Multiset (Pt K d) → Bool) (opsN : List (GridOp K d)) (stN : St k.backend (Multiset (Pt K d))) (hN : gridRun g k.dyn expN opsN (k.init _) = some stN)
    (rayO : Pt K d → Pt K d → List (Idx d)) (expO : Occ Nat (Pt K d) → Bool) (opsO : List (OccMapOp K d Nat (Pt K d)))
    (stO : St k.backend (Occ Nat (Pt K d))) (hO : occRun (occFlavour K d) g k.dyn rayO expO opsO (k.init _) = some stO)
    (hsO : Spec.occScans opsO = Spec.gridScans opsN) (c : Nat) (hc : c < 2 ^ d) (i : Idx d) :
    ((stO.content c i).getD Occ.new).samples ≤ (stN.content c i).getD 0 := by
  classical
  obtain ⟨h1, _⟩ := C27_bounds_any_history k g hr rayO expO opsO stO hO c hc i
  refine h1.trans ((allHits_le g k c i opsO).trans (le_of_eq ?_))
  rw [C10_contents_exact k g hr expN opsN stN hN c hc i, hsO, accepted_scans]

/-! ### misses -/

/-- the part of a scan that its hits and misses depend on -/
def plainScan (t : (Pt K d → Pt K d) × List (Pt K d) × (Pt K d → Pt K d → List (Idx d))) : Scan K d Unit :=
  { pose := t.1, cloud := t.2.1, ray := t.2.2, order := id, order_perm := fun l => List.Perm.refl l }

omit [IsStrictOrderedRing K] in
theorem misses_plain (skip : Bool) (g : Geo K d) (k : Kind d) (s : Scan K d W) (c : Nat) (i : Idx d) :
    Spec.misses skip g k s c i = Spec.misses skip g k (plainScan (s.pose, s.cloud, s.ray)) c i := rfl

omit [IsStrictOrderedRing K] in
theorem misses_traced (skip : Bool) (g : Geo K d) (k : Kind d) (c : Nat) (i : Idx d) : ∀ ops : List (OccMapOp K d W E),
    ((scansOf ops).map fun s => Spec.misses skip g k s c i).sum = ((Spec.tracedScans ops).map fun t => Spec.misses skip g k (plainScan t) c i).sum
  | [] => rfl
  | .insert s :: l => by
    show ((s :: scansOf l).map _).sum = (((s.pose, s.cloud, s.ray) :: Spec.tracedScans l).map _).sum
    rw [List.map_cons, List.map_cons, List.sum_cons, List.sum_cons, misses_traced skip g k c i l]
    rfl
  | .core _ :: l => misses_traced skip g k c i l
  | .insertVisible _ _ _ :: l => misses_traced skip g k c i l

omit [IsStrictOrderedRing K] [FloorRing K] in
theorem hits_traced (g : Geo K d) (k : Kind d) : ∀ ops : List (OccMapOp K d W E),
    ((scansOf ops).map fun s => Spec.hits g k s).sum = ((Spec.tracedScans ops).map fun t => Spec.hits g k (plainScan t)).sum
  | [] => rfl
  | .insert s :: l => by
    show ((s :: scansOf l).map _).sum = (((s.pose, s.cloud, s.ray) :: Spec.tracedScans l).map _).sum
    rw [List.map_cons, List.map_cons, List.sum_cons, List.sum_cons, hits_traced g k l]
    rfl
  | .core _ :: l => hits_traced g k l
  | .insertVisible _ _ _ :: l => hits_traced g k l

omit [IsStrictOrderedRing K] in
theorem misses_skip_le (g : Geo K d) (k : Kind d) (s : Scan K d W) (c : Nat) (i : Idx d) :
    Spec.misses true g k s c i ≤ Spec.misses false g k s c i ∧ (Spec.RaysAvoidHits g k s → Spec.misses true g k s c i = Spec.misses false g k s c i) := by
  unfold Spec.misses
  constructor
  · refine Finset.sum_le_sum fun b _ => Nat.mul_le_mul_right _ ?_
    refine List.Sublist.length_le (List.monotone_filter_right _ fun x hx => ?_)
    simp only [decide_eq_true_eq] at hx ⊢
    exact ⟨hx.1, hx.2.1, by simp⟩
  · intro ha
    refine Finset.sum_congr rfl fun b hb => ?_
    refine congrArg (fun l => List.length l * _) (List.filter_congr fun x hx => ?_)
    rw [decide_eq_decide]
    constructor
    · exact fun h => ⟨h.1, h.2.1, by simp⟩
    · exact fun h => ⟨h.1, h.2.1, fun _ => ha b hb x hx⟩

/-- **C105** (misses). Insert the same scans with the same line iterators into an occupancy map and a weighted occupancy map. Then no cell has more free weight in the weighted map than misses in the other one, and as much if no
ray of a scan enters a bundle with hits of that scan. -/
theorem C105_misses_partial (k : Kind d) (g : Geo K d) (hr : 0 < g.r)
    (rayO : Pt K d → Pt K d → List (Idx d)) (expO : Occ Nat (Pt K d) → Bool) (opsO : List (OccMapOp K d Nat (Pt K d))) (hpO : ∀ op ∈ opsO, op.Plain)
    (stO : St k.backend (Occ Nat (Pt K d))) (hO : occRun (occFlavour K d) g k.dyn rayO expO opsO (k.init _) = some stO)
    (rayW : Pt K d → Pt K d → List (Idx d)) (expW : Occ K (Pt K d × K) → Bool) (opsW : List (OccMapOp K d K (Pt K d × K))) (hpW : ∀ op ∈ opsW, op.Plain)
    (stW : St k.backend (Occ K (Pt K d × K))) (hW : occRun (weightedFlavour K d) g k.dyn rayW expW opsW (k.init _) = some stW)
    (hs : Spec.tracedScans opsO = Spec.tracedScans opsW) (c : Nat) (hc : c < 2 ^ d) (i : Idx d) :
    ((stW.content c i).getD Occ.new).numFree ≤ (((stO.content c i).getD Occ.new).numFree : K) ∧
    ((∀ s ∈ scansOf opsO, Spec.RaysAvoidHits g k s) → ((stW.content c i).getD Occ.new).numFree = (((stO.content c i).getD Occ.new).numFree : K)) := by
  obtain ⟨a1, _⟩ := C27_occupancy_counts k g hr rayO expO opsO hpO stO hO c hc i
  obtain ⟨b1, _⟩ := C27_weighted_counts k g hr rayW expW opsW hpW stW hW c hc i
  rw [a1, b1, misses_traced true g k c i opsW, ← hs, ← misses_traced true g k c i opsO]
  constructor
  · refine Nat.cast_le.2 (List.sum_le_sum fun s _ => (misses_skip_le g k s c i).1)
  · intro h
    exact congrArg _ (congrArg List.sum (List.map_congr_left fun s hs => (misses_skip_le g k s c i).2 (h s hs)))

/-! ### samples -/

/-- **C105** (samples). Insert the same scans, with points that are normal in the sensor frame, into an NDT map and into an occupancy map of either kind, whose densities agree on the same points. After neighbourhood allocation, possibly
followed by lookups and further allocations, the value sampled from the occupancy map lies between `lo` and `hi` times the one sampled from the NDT map, if the occupancies of the distributions with hits lie between `lo` and `hi`. -/
theorem C105_samples_partial [AddCommMonoid W] {M : Type} (fl : Flavour K d W E) (k : Kind d) (g : Geo K d) (hr : 0 < g.r)
    (expN : Multiset (Pt K d) → Bool) (hexpN : expN 0 = false) (opsN : List (GridOp K d)) (moreN : List (CoreOp d)) (stN : St k.backend (Multiset (Pt K d)))
    (hN : gridRun g k.dyn expN (expandedHistory opsN moreN) (k.init _) = some stN)
    (rayO : Pt K d → Pt K d → List (Idx d)) (expO : Occ W E → Bool) (hexpO : expO default = false) (opsO : List (OccMapOp K d W E)) (hpO : ∀ op ∈ opsO, op.Plain) (moreO : List (CoreOp d))
    (s0 s1 stO : St k.backend (Occ W E)) (hO : occRun fl g k.dyn rayO expO opsO (k.init _) = some s0) (hO1 : allocPartials k.dyn expO s0 = some s1) (hO2 : coreRun k.dyn expO moreO s1 = some stO)
    (hs : Spec.occScans opsO = Spec.gridScans opsN) (hn : ∀ s ∈ Spec.gridScans opsN, ∀ p ∈ s.2, g.normal p = true)
    (densN : Multiset (Pt K d) → Pt K d → K) (hdN : ∀ s q, expN s = false → densN s q = 0) (hpos : ∀ s q, 0 ≤ densN s q)
    (densO : Multiset E → Pt K d → K) (hdO : ∀ (o : Occ W E) s q, o.data = some s → expO o = false → densO s q = 0) (hdens : ∀ s q, densO (s.map fl.sample) q = densN s q)
    (occ : M → Occ W E → K) (m : M) (lo hi : K) (hocc : ∀ (o : Occ W E) s, o.data = some s → lo ≤ occ m o ∧ occ m o ≤ hi)
    (p : Pt K d) (hp : Spec.Region g.r k (g.toMap p)) (x y : K) :
    (sampleNNAt g k.dyn densN p stN = some x → occSampleNNAt g k.dyn densO occ p (some m) stO = .ok (some y) → lo * x ≤ y ∧ y ≤ hi * x) ∧
    (sampleBilinearAt g k.dyn densN p stN = some x → occSampleBilinearAt g k.dyn densO occ p (some m) stO = .ok (some y) → lo * x ≤ y ∧ y ≤ hi * x) := by
  classical
  have hin : ∀ c, Spec.InCell g.r c (generateIndex (toBundleIndex g.r (g.toMap p)) c) (g.toMap p) := fun c => (C01_point_in_selected_cell hr _ c _).1 rfl
  obtain ⟨a1, a2⟩ := C90_field_of_points k g hr expN hexpN opsN moreN stN hN densN hdN p hp x
  obtain ⟨b1, b2⟩ := C90_occupancy_field fl k g hr rayO expO hexpO s0 s1 stO ⟨opsO, hO⟩ hO1 moreO hO2 densO occ m hdO p hp y _ hin
  have key : ∀ c ∈ Finset.range (2 ^ d),
      lo * densN (cellMates g.r (Spec.accepted g k opsN) c (g.toMap p)) (g.toMap p) ≤
        ((s0.content c (generateIndex (toBundleIndex g.r (g.toMap p)) c)).bind fun o => o.data.map fun s => densO s (g.toMap p) * occ m o).getD 0 ∧
      ((s0.content c (generateIndex (toBundleIndex g.r (g.toMap p)) c)).bind fun o => o.data.map fun s => densO s (g.toMap p) * occ m o).getD 0 ≤
        hi * densN (cellMates g.r (Spec.accepted g k opsN) c (g.toMap p)) (g.toMap p) := by
    intro c hc
    have hmates : (Spec.accepted g k opsN).filter (Spec.InCell g.r c (generateIndex (toBundleIndex g.r (g.toMap p)) c)) = cellMates g.r (Spec.accepted g k opsN) c (g.toMap p) := by
      unfold cellMates
      refine Multiset.filter_congr fun a _ => ⟨fun h => ⟨_, hin c, h⟩, ?_⟩
      rintro ⟨i, h1, h2⟩
      rw [cell_index hr _ c i h1]
      exact h2
    have hsam := kinds_samples fl k g hr rayO expO opsO hpO s0 hO opsN hs hn c (Finset.mem_range.1 hc) (generateIndex (toBundleIndex g.r (g.toMap p)) c)
    rw [hmates] at hsam
    have hzero : cellMates g.r (Spec.accepted g k opsN) c (g.toMap p) = 0 → densN (cellMates g.r (Spec.accepted g k opsN) c (g.toMap p)) (g.toMap p) = 0 := by
      intro h
      rw [h]
      exact hdN 0 _ hexpN
    cases hcont : s0.content c (generateIndex (toBundleIndex g.r (g.toMap p)) c) with
    | none =>
      rw [hcont] at hsam
      have h0 := hzero (Multiset.map_eq_zero.1 hsam.symm)
      rw [h0]
      simp
    | some o =>
      rw [hcont, Option.getD_some] at hsam
      cases hdata : o.data with
      | none =>
        unfold Occ.samples at hsam
        rw [hdata] at hsam
        have h0 := hzero (Multiset.map_eq_zero.1 hsam.symm)
        rw [h0]
        simp [hdata]
      | some s =>
        unfold Occ.samples at hsam
        rw [hdata] at hsam
        simp only [Option.bind_some, hdata, Option.map_some, Option.getD_some]
        have hsam' : s = Multiset.map fl.sample (cellMates g.r (Spec.accepted g k opsN) c (g.toMap p)) := hsam
        rw [hsam', hdens]
        obtain ⟨o1, o2⟩ := hocc o s hdata
        have := hpos (cellMates g.r (Spec.accepted g k opsN) c (g.toMap p)) (g.toMap p)
        exact ⟨by rw [mul_comm]; exact mul_le_mul_of_nonneg_left o1 this, by rw [mul_comm hi]; exact mul_le_mul_of_nonneg_left o2 this⟩
  constructor
  · intro hx hy
    rw [a1 hx, b1 hy, mul_div_assoc', mul_div_assoc', Finset.mul_sum, Finset.mul_sum]
    have h2 : (0 : K) ≤ 2 ^ d := by positivity
    exact ⟨div_le_div_of_nonneg_right (Finset.sum_le_sum fun c hc => (key c hc).1) h2, div_le_div_of_nonneg_right (Finset.sum_le_sum fun c hc => (key c hc).2) h2⟩
  · intro hx hy
    rw [a2 hx _ hin, b2 hy, Finset.mul_sum, Finset.mul_sum]
    have hhat : ∀ c, 0 ≤ Spec.hat g.r c (generateIndex (toBundleIndex g.r (g.toMap p)) c) (g.toMap p) := fun c => Finset.prod_nonneg fun _ _ => le_max_left _ _
    constructor
    · refine Finset.sum_le_sum fun c hc => ?_
      rw [mul_left_comm]
      exact mul_le_mul_of_nonneg_left (key c hc).1 (hhat c)
    · refine Finset.sum_le_sum fun c hc => ?_
      rw [mul_left_comm]
      exact mul_le_mul_of_nonneg_left (key c hc).2 (hhat c)

end

/-! ### occupancies -/

theorem logOdds_bounds (l : ℝ) : 0 ≤ logOddsFrom l ∧ logOddsFrom l ≤ 1 := by
  have h := Real.exp_pos l
  unfold logOddsFrom
  have h1 : 1 / (1 + Real.exp l) ≤ 1 := by rw [div_le_one (by linarith)]; linarith
  have h0 : 0 ≤ 1 / (1 + Real.exp l) := by positivity
  exact ⟨by linarith, by linarith⟩

theorem logOdds_mono {a b : ℝ} (h : a ≤ b) : logOddsFrom a ≤ logOddsFrom b := by
  unfold logOddsFrom
  have := Real.exp_le_exp.2 h
  have ha := Real.exp_pos a
  have : 1 / (1 + Real.exp b) ≤ 1 / (1 + Real.exp a) := one_div_le_one_div_of_le (by linarith) (by linarith)
  linarith

theorem data_of_samples {W E : Type} [AddCommMonoid W] (o : Occ W E) (h : o.samples ≠ 0) : o.data = some o.samples := by
  unfold Occ.samples at h ⊢
  cases hx : o.data with
  | none => rw [hx] at h; exact absurd rfl h
  | some s => rfl

/-- **C105** (samples of occupancy maps). With the occupancies the library computes, free space only lowers the sampled value: after the same scans and neighbourhood allocation, the value sampled from an occupancy map, with any inverse
sensor model, is at least 0 and at most the one sampled from an NDT map. -/
theorem C105_occupancy_below_partial {d : Nat} (k : Kind d) (g : Geo ℝ d) (hr : 0 < g.r)
    (expN : Multiset (Pt ℝ d) → Bool) (hexpN : expN 0 = false) (opsN : List (GridOp ℝ d)) (moreN : List (CoreOp d)) (stN : St k.backend (Multiset (Pt ℝ d)))
    (hN : gridRun g k.dyn expN (expandedHistory opsN moreN) (k.init _) = some stN)
    (rayO : Pt ℝ d → Pt ℝ d → List (Idx d)) (expO : Occ Nat (Pt ℝ d) → Bool) (hexpO : expO default = false) (opsO : List (OccMapOp ℝ d Nat (Pt ℝ d))) (hpO : ∀ op ∈ opsO, op.Plain) (moreO : List (CoreOp d))
    (s0 s1 stO : St k.backend (Occ Nat (Pt ℝ d))) (hO : occRun (occFlavour ℝ d) g k.dyn rayO expO opsO (k.init _) = some s0) (hO1 : allocPartials k.dyn expO s0 = some s1) (hO2 : coreRun k.dyn expO moreO s1 = some stO)
    (hs : Spec.occScans opsO = Spec.gridScans opsN) (hn : ∀ s ∈ Spec.gridScans opsN, ∀ p ∈ s.2, g.normal p = true)
    (dens : Multiset (Pt ℝ d) → Pt ℝ d → ℝ) (hdN : ∀ s q, expN s = false → dens s q = 0) (hpos : ∀ s q, 0 ≤ dens s q)
    (hdO : ∀ (o : Occ Nat (Pt ℝ d)) s q, o.data = some s → expO o = false → dens s q = 0) (m : Ivm)
    (p : Pt ℝ d) (hp : Spec.Region g.r k (g.toMap p)) (x y : ℝ) :
    (sampleNNAt g k.dyn dens p stN = some x → occSampleNNAt g k.dyn dens Occ.occupancy p (some m) stO = .ok (some y) → 0 ≤ y ∧ y ≤ x) ∧
    (sampleBilinearAt g k.dyn dens p stN = some x → occSampleBilinearAt g k.dyn dens Occ.occupancy p (some m) stO = .ok (some y) → 0 ≤ y ∧ y ≤ x) := by
  have h := C105_samples_partial (occFlavour ℝ d) k g hr expN hexpN opsN moreN stN hN rayO expO hexpO opsO hpO moreO s0 s1 stO hO hO1 hO2 hs hn dens hdN hpos dens hdO
    (fun s q => by rw [show (occFlavour ℝ d).sample = id from rfl, Multiset.map_id]) Occ.occupancy m 0 1 (fun o s ho => by unfold Occ.occupancy; rw [ho]; exact logOdds_bounds _) p hp x y
  simpa only [zero_mul, one_mul] using h

/-- **C105** (occupancies). Insert the same scans with the same line iterators into an occupancy map and a weighted occupancy map. If a miss is evidence for free space (`logFree ≤ logPrior`), then the occupancy of every cell of the
weighted map is at least the one in the other map, and equal to it if no ray of a scan enters a bundle with hits of that scan (as long as the counters have not overflowed). -/
theorem C105_occupancies_partial {d : Nat} (k : Kind d) (g : Geo ℝ d) (hr : 0 < g.r)
    (rayO : Pt ℝ d → Pt ℝ d → List (Idx d)) (expO : Occ Nat (Pt ℝ d) → Bool) (opsO : List (OccMapOp ℝ d Nat (Pt ℝ d))) (hpO : ∀ op ∈ opsO, op.Plain)
    (stO : St k.backend (Occ Nat (Pt ℝ d))) (hO : occRun (occFlavour ℝ d) g k.dyn rayO expO opsO (k.init _) = some stO)
    (rayW : Pt ℝ d → Pt ℝ d → List (Idx d)) (expW : Occ ℝ (Pt ℝ d × ℝ) → Bool) (opsW : List (OccMapOp ℝ d ℝ (Pt ℝ d × ℝ))) (hpW : ∀ op ∈ opsW, op.Plain)
    (stW : St k.backend (Occ ℝ (Pt ℝ d × ℝ))) (hW : occRun (weightedFlavour ℝ d) g k.dyn rayW expW opsW (k.init _) = some stW)
    (hs : Spec.tracedScans opsO = Spec.tracedScans opsW) (c : Nat) (hc : c < 2 ^ d) (i : Idx d) (m : Ivm)
    (hw : ((stO.content c i).getD Occ.new).numFree + ((stO.content c i).getD Occ.new).numOccupied ≤ 2 ^ 64) :
    (m.logFree ≤ m.logPrior → ((stO.content c i).getD Occ.new).occupancy m ≤ ((stW.content c i).getD Occ.new).occupancyW m) ∧
    ((∀ s ∈ scansOf opsO, Spec.RaysAvoidHits g k s) → ((stO.content c i).getD Occ.new).occupancy m = ((stW.content c i).getD Occ.new).occupancyW m) := by
  classical
  obtain ⟨f1, f2⟩ := C105_misses_partial k g hr rayO expO opsO hpO stO hO rayW expW opsW hpW stW hW hs c hc i
  have e1 := run_samples (occFlavour ℝ d) k g hr rayO expO opsO hpO stO hO c hc i
  have e2 := run_samples (weightedFlavour ℝ d) k g hr rayW expW opsW hpW stW hW c hc i
  rw [show (occFlavour ℝ d).sample = id from rfl, Multiset.map_id] at e1
  have hh : ((scansOf opsW).map fun s => Spec.hits g k s).sum = ((scansOf opsO).map fun s => Spec.hits g k s).sum := by
    rw [hits_traced g k opsW, hits_traced g k opsO, hs]
  rw [hh, ← e1] at e2
  have nO : (((stO.content c i).getD Occ.new).data = none ↔ ((stO.content c i).getD Occ.new).samples = 0) := by
    cases hx : stO.content c i with
    | none => exact ⟨fun _ => rfl, fun _ => rfl⟩
    | some o => exact C27_no_empty_distribution (occFlavour ℝ d) k g rayO expO opsO stO hO c hc i o hx
  have nW : (((stW.content c i).getD Occ.new).data = none ↔ ((stW.content c i).getD Occ.new).samples = 0) := by
    cases hx : stW.content c i with
    | none => exact ⟨fun _ => rfl, fun _ => rfl⟩
    | some o => exact C27_no_empty_distribution (weightedFlavour ℝ d) k g rayW expW opsW stW hW c hc i o hx
  generalize (stO.content c i).getD Occ.new = o at *
  generalize (stW.content c i).getD Occ.new = w at *
  by_cases h0 : o.samples = 0
  · have hw0 : w.samples = 0 := by rw [e2, h0]; rfl
    unfold Occ.occupancy Occ.occupancyW
    rw [nO.2 h0, nW.2 hw0]
    exact ⟨fun _ => le_refl _, fun _ => rfl⟩
  · have hw0 : w.samples ≠ 0 := by rw [e2]; exact fun h => h0 (Multiset.map_eq_zero.1 h)
    have hcard : 0 < o.samples.card := Multiset.card_pos.2 h0
    have hsum : (w.samples.map Prod.snd).sum = (o.samples.card : ℝ) := by
      rw [e2, Multiset.map_map]
      show (Multiset.map (fun _ => (1 : ℝ)) _).sum = _
      rw [Multiset.map_const', Multiset.sum_replicate, nsmul_eq_mul, mul_one]
    rw [Occ.numOccupied_eq] at hw
    unfold Occ.occupancy Occ.occupancyW
    rw [data_of_samples o h0, data_of_samples w hw0]
    simp only
    unfold Occ.numFree at hw f1 f2
    rw [hsum, wrapMinusOne_eq hcard hw, Nat.cast_sub (by omega), Nat.cast_add, Nat.cast_one]
    constructor
    · intro hm
      refine logOdds_mono ?_
      nlinarith [mul_nonneg (sub_nonneg.2 f1) (sub_nonneg.2 hm)]
    · intro ha
      rw [f2 ha]

/-! ### Concrete cases -/

/-- two points in neighbouring bundles; the ray to the second one passes the bundle of the first one -/
def kindCloud : List (Pt ℚ 1) := [fun _ => 1 / 5, fun _ => 3 / 5]
def kindRay : Pt ℚ 1 → Pt ℚ 1 → List (Idx 1) := fun _ e => if e 0 < 1 / 2 then [fun _ => -1] else [fun _ => -1, fun _ => 0]
def kindScan (W : Type) : Scan ℚ 1 W := { pose := id, cloud := kindCloud, ray := kindRay, order := id, order_perm := fun l => List.Perm.refl l }

def kindN : Option (St fieldKind.backend (Multiset (Pt ℚ 1))) := gridRun fieldGeo fieldKind.dyn fieldExp (expandedHistory [.insert id kindCloud] []) (fieldKind.init _)
def kindO : Option (St fieldKind.backend (Occ Nat (Pt ℚ 1))) := occRun (occFlavour ℚ 1) fieldGeo fieldKind.dyn kindRay fieldOccExp [.insert (kindScan Nat)] (fieldKind.init _)
def kindW : Option (St fieldKind.backend (Occ ℚ (Pt ℚ 1 × ℚ))) := occRun (weightedFlavour ℚ 1) fieldGeo fieldKind.dyn kindRay (fun o => decide (0 < o.samples.card)) [.insert (kindScan ℚ)] (fieldKind.init _)

theorem kindN_runs : kindN.isSome = true := by decide +kernel
theorem kindO_runs : kindO.isSome = true := by decide +kernel
theorem kindW_runs : kindW.isSome = true := by decide +kernel

def kindO1 : Option (St fieldKind.backend (Occ Nat (Pt ℚ 1))) := allocPartials fieldKind.dyn fieldOccExp (kindO.get kindO_runs)
theorem kindO1_runs : kindO1.isSome = true := by decide +kernel

/-- Non-vacuity: the hypotheses of `C105_same_points_partial` and `C105_misses_partial` hold for a scan with two points in neighbouring bundles; cell 0 of grid 0 has both of them in all three maps. -/
example : ∃ stN stO stW, kindN = some stN ∧ kindO = some stO ∧ kindW = some stW ∧
    Spec.occScans [(.insert (kindScan Nat) : OccMapOp ℚ 1 Nat (Pt ℚ 1))] = Spec.gridScans (expandedHistory [.insert id kindCloud] []) ∧
    Spec.occScans [(.insert (kindScan ℚ) : OccMapOp ℚ 1 ℚ (Pt ℚ 1 × ℚ))] = Spec.gridScans (expandedHistory [.insert id kindCloud] []) ∧
    Spec.tracedScans [(.insert (kindScan Nat) : OccMapOp ℚ 1 Nat (Pt ℚ 1))] = Spec.tracedScans [(.insert (kindScan ℚ) : OccMapOp ℚ 1 ℚ (Pt ℚ 1 × ℚ))] ∧
    ((stN.content 0 fun _ => 0).getD 0).card = 2 ∧ ((stO.content 0 fun _ => 0).getD Occ.new).samples.card = 2 ∧ ((stW.content 0 fun _ => 0).getD Occ.new).weightOccupied = 2 :=
  ⟨_, _, _, (Option.some_get kindN_runs).symm, (Option.some_get kindO_runs).symm, (Option.some_get kindW_runs).symm, rfl, rfl, rfl, by decide +kernel, by decide +kernel, by decide +kernel⟩

/-- Non-vacuity: the hypotheses of `C105_samples_partial`; with the constant occupancy 1/3, the value sampled from the occupancy map is a third of the one sampled from the NDT map. -/
example : ∃ stN s0 s1, kindN = some stN ∧ kindO = some s0 ∧ allocPartials fieldKind.dyn fieldOccExp s0 = some s1 ∧ coreRun fieldKind.dyn fieldOccExp [] s1 = some s1 ∧
    (∀ s q, fieldExp s = false → fieldDens s q = 0) ∧ (∀ s q, 0 ≤ fieldDens s q) ∧ (∀ (o : Occ Nat (Pt ℚ 1)) s q, o.data = some s → fieldOccExp o = false → fieldDens s q = 0) ∧
    Spec.Region fieldGeo.r fieldKind (fieldGeo.toMap fun _ => 3 / 5) ∧
    sampleNNAt fieldGeo fieldKind.dyn fieldDens (fun _ => 3 / 5) stN = some (3 / 2) ∧
    occSampleNNAt fieldGeo fieldKind.dyn fieldDens (fun (m : ℚ) _ => m) (fun _ => 3 / 5) (some (1 / 3)) s1 = .ok (some (1 / 2)) := by
  have hs : sampleWith fieldKind.dyn (fun _ => divCount ℚ 1) (occValue fieldDens (fun _ => (1 / 3 : ℚ)) (fieldGeo.toMap fun _ => 3 / 5)) (toBundleIndex fieldGeo.r (fieldGeo.toMap fun _ => 3 / 5))
      (kindO1.get kindO1_runs) = some (1 / 2) := by decide +kernel
  refine ⟨_, _, kindO1.get kindO1_runs, (Option.some_get kindN_runs).symm, (Option.some_get kindO_runs).symm, (Option.some_get kindO1_runs).symm, rfl, fieldDens_zero, fun s q => Nat.cast_nonneg _, ?_, ?_,
    by decide +kernel, congrArg Except.ok hs⟩
  · intro o s q ho he
    have : s.card = 0 := by simpa [fieldOccExp, Occ.samples, ho] using he
    unfold fieldDens
    rw [this]; rfl
  · refine (valid_iff_region (Multiset (Pt ℚ 1)) fieldGeo.r (by decide) fieldKind _).1 ?_
    decide +kernel

/-- **C105** (the misses are not the same): with the same scan, both occupancy maps have the same hits, but cell 0 of grid 0 has one miss in the occupancy map and no free weight in the weighted one, since only the latter ignores rays
through bundles with hits. -/
theorem C105_misses_refuted : ∃ (stO : St fieldKind.backend (Occ Nat (Pt ℚ 1))) (stW : St fieldKind.backend (Occ ℚ (Pt ℚ 1 × ℚ))),
    occRun (occFlavour ℚ 1) fieldGeo fieldKind.dyn kindRay fieldOccExp [.insert (kindScan Nat)] (fieldKind.init _) = some stO ∧
    occRun (weightedFlavour ℚ 1) fieldGeo fieldKind.dyn kindRay (fun o => decide (0 < o.samples.card)) [.insert (kindScan ℚ)] (fieldKind.init _) = some stW ∧
    ((stO.content 0 fun _ => 0).getD Occ.new).numFree = 1 ∧ ((stW.content 0 fun _ => 0).getD Occ.new).numFree = 0 :=
  ⟨_, _, (Option.some_get kindO_runs).symm, (Option.some_get kindW_runs).symm, by decide +kernel, by decide +kernel⟩

/-- points with a zero coordinate are not normal, as with `std::isnormal` -/
def zeroGeo : Geo ℚ 1 := { r := 1, toMap := id, normal := fun p => decide (p 0 ≠ 0) }
def shiftPose : Pt ℚ 1 → Pt ℚ 1 := fun p _ => p 0 + 1 / 5
def zeroScan : Scan ℚ 1 Nat := { pose := shiftPose, cloud := [fun _ => 0], ray := fun _ _ => [], order := id, order_perm := fun l => List.Perm.refl l }

def zeroN : Option (St fieldKind.backend (Multiset (Pt ℚ 1))) := gridRun zeroGeo fieldKind.dyn fieldExp [.insert shiftPose [fun _ => 0]] (fieldKind.init _)
def zeroO : Option (St fieldKind.backend (Occ Nat (Pt ℚ 1))) := occRun (occFlavour ℚ 1) zeroGeo fieldKind.dyn kindRay fieldOccExp [.insert zeroScan] (fieldKind.init _)
theorem zeroN_runs : zeroN.isSome = true := by decide +kernel
theorem zeroO_runs : zeroO.isSome = true := by decide +kernel

/-- **C105** (points that are not normal in the sensor frame): occupancy maps test the points before and after the transformation by the pose, NDT maps only after it. A point at the origin of the sensor, which is not normal in the sense
of `std::isnormal`, enters the NDT map only. -/
theorem C105_not_normal_refuted : ∃ (stN : St fieldKind.backend (Multiset (Pt ℚ 1))) (stO : St fieldKind.backend (Occ Nat (Pt ℚ 1))),
    gridRun zeroGeo fieldKind.dyn fieldExp [.insert shiftPose [fun _ => 0]] (fieldKind.init _) = some stN ∧
    occRun (occFlavour ℚ 1) zeroGeo fieldKind.dyn kindRay fieldOccExp [.insert zeroScan] (fieldKind.init _) = some stO ∧
    ((stN.content 0 fun _ => 0).getD 0).card = 1 ∧ ((stO.content 0 fun _ => 0).getD Occ.new).samples = 0 :=
  ⟨_, _, (Option.some_get zeroN_runs).symm, (Option.some_get zeroO_runs).symm, by decide +kernel, by decide +kernel⟩

def bareN : Option (St fieldKind.backend (Multiset (Pt ℚ 1))) := gridRun fieldGeo fieldKind.dyn fieldExp [.insert id [fun _ => 3 / 5]] (fieldKind.init _)
def bareScan : Scan ℚ 1 Nat := { pose := id, cloud := [fun _ => 3 / 5], ray := fun _ _ => [fun _ => 0], order := id, order_perm := fun l => List.Perm.refl l }
def bareO : Option (St fieldKind.backend (Occ Nat (Pt ℚ 1))) := occRun (occFlavour ℚ 1) fieldGeo fieldKind.dyn kindRay fieldOccExp [.insert bareScan] (fieldKind.init _)
theorem bareN_runs : bareN.isSome = true := by decide +kernel
theorem bareO_runs : bareO.isSome = true := by decide +kernel

/-- **C105** (without neighbourhood allocation): rays allocate the bundles they pass, so that after one scan a sample next to the hit is 0 in the NDT map, and half the density times the occupancy in the occupancy map. -/
theorem C105_unexpanded_refuted : ∃ (stN : St fieldKind.backend (Multiset (Pt ℚ 1))) (stO : St fieldKind.backend (Occ Nat (Pt ℚ 1))),
    gridRun fieldGeo fieldKind.dyn fieldExp [.insert id [fun _ => 3 / 5]] (fieldKind.init _) = some stN ∧
    occRun (occFlavour ℚ 1) fieldGeo fieldKind.dyn kindRay fieldOccExp [.insert bareScan] (fieldKind.init _) = some stO ∧
    sampleNNAt fieldGeo fieldKind.dyn fieldDens (fun _ => 1 / 5) stN = some 0 ∧
    occSampleNNAt fieldGeo fieldKind.dyn fieldDens (fun (m : ℚ) _ => m) (fun _ => 1 / 5) (some (1 / 3)) stO = .ok (some (1 / 6)) := by
  have hs : sampleWith fieldKind.dyn (fun _ => divCount ℚ 1) (occValue fieldDens (fun _ => (1 / 3 : ℚ)) (fieldGeo.toMap fun _ => 1 / 5)) (toBundleIndex fieldGeo.r (fieldGeo.toMap fun _ => 1 / 5))
      (bareO.get bareO_runs) = some (1 / 6) := by decide +kernel
  exact ⟨_, _, (Option.some_get bareN_runs).symm, (Option.some_get bareO_runs).symm, by decide +kernel, congrArg Except.ok hs⟩

/-- a scan with one point over the real numbers, with a ray through a bundle without hits -/
noncomputable def realScan (W : Type) : Scan ℝ 1 W := { pose := id, cloud := [fun _ => 1 / 5], ray := fun _ _ => [fun _ => -1], order := id, order_perm := fun l => List.Perm.refl l }
def realGeo1 : Geo ℝ 1 := { r := 1, toMap := id, normal := fun _ => true }

/-- Non-vacuity: the hypotheses of `C105_occupancies_partial` hold for this scan. -/
example (c : Nat) (hc : c < 2 ^ 1) (i : Idx 1) : ∃ stO stW,
    occRun (occFlavour ℝ 1) realGeo1 fieldKind.dyn (fun _ _ => []) (fun _ => false) [.insert (realScan Nat)] (fieldKind.init _) = some stO ∧
    occRun (weightedFlavour ℝ 1) realGeo1 fieldKind.dyn (fun _ _ => []) (fun _ => false) [.insert (realScan ℝ)] (fieldKind.init _) = some stW ∧
    Spec.tracedScans [(.insert (realScan Nat) : OccMapOp ℝ 1 Nat (Pt ℝ 1))] = Spec.tracedScans [(.insert (realScan ℝ) : OccMapOp ℝ 1 ℝ (Pt ℝ 1 × ℝ))] ∧
    ((stO.content c i).getD Occ.new).numFree + ((stO.content c i).getD Occ.new).numOccupied ≤ 2 ^ 64 ∧
    (∀ s ∈ scansOf [(.insert (realScan Nat) : OccMapOp ℝ 1 Nat (Pt ℝ 1))], Spec.RaysAvoidHits realGeo1 fieldKind s) := by
  classical
  have hv : ∀ (D : Type) [Inhabited D] (j : Idx 1), (fieldKind.init D).abs.valid fieldKind.dyn j = true → (fieldKind.init D).abs.Good j := fun D _ j h => Kind.static_good _ _ _ h
  obtain ⟨stO, hO⟩ := occRun_total fieldKind.lawful (occFlavour ℝ 1) realGeo1 fieldKind.dyn (fun _ _ => []) (fun _ => false) [.insert (realScan Nat)] _ fieldKind.init_rinv (hv _)
  obtain ⟨stW, hW⟩ := occRun_total fieldKind.lawful (weightedFlavour ℝ 1) realGeo1 fieldKind.dyn (fun _ _ => []) (fun _ => false) [.insert (realScan ℝ)] _ fieldKind.init_rinv (hv _)
  have hhits : Spec.hits realGeo1 fieldKind (realScan Nat) ≤ {fun _ => 1 / 5} := by
    unfold Spec.hits Spec.acceptedPoints
    refine (Multiset.filter_le _ _).trans (le_of_eq ?_)
    simp [realScan, realGeo1]
  have hcard : (Spec.hits realGeo1 fieldKind (realScan Nat)).card ≤ 1 := by simpa using Multiset.card_le_card hhits
  have hb : ∀ b ∈ Spec.hitBundles realGeo1 fieldKind (realScan Nat), b = fun _ => 0 := by
    intro b hb
    unfold Spec.hitBundles at hb
    rw [Multiset.mem_toFinset, Multiset.mem_map] at hb
    obtain ⟨p, hp, rfl⟩ := hb
    have := Multiset.mem_of_le hhits hp
    rw [Multiset.mem_singleton] at this
    subst this
    funext a
    show ⌊(1 / 5 : ℝ) / (1 / 2)⌋ = 0
    norm_num
  refine ⟨stO, stW, hO, hW, rfl, ?_, ?_⟩
  · obtain ⟨a1, _, a3⟩ := C27_occupancy_counts fieldKind realGeo1 (by norm_num [realGeo1]) (fun _ _ => []) (fun _ => false) _ (by intro op ho; rw [List.mem_singleton] at ho; subst ho; trivial) stO hO c hc i
    rw [a1, a3]
    simp only [scansOf, List.map_cons, List.map_nil, List.sum_cons, List.sum_nil, add_zero]
    have h1 : Spec.misses false realGeo1 fieldKind (realScan Nat) c i ≤ 1 := by
      unfold Spec.misses
      refine (Finset.sum_le_card_nsmul _ _ 1 fun b _ => ?_).trans ?_
      · exact (Nat.mul_le_mul (List.length_filter_le _ _) ((Multiset.card_le_card (Multiset.filter_le _ _)).trans hcard)).trans (le_of_eq rfl)
      · rw [smul_eq_mul, mul_one]
        exact (Multiset.toFinset_card_le _).trans (by rw [Multiset.card_map]; exact hcard)
    have h2 := (Multiset.card_le_card (Multiset.filter_le (Spec.InCell realGeo1.r c i) (Spec.hits realGeo1 fieldKind (realScan Nat)))).trans hcard
    have : (2 : Nat) ≤ 2 ^ 64 := by norm_num
    omega
  · intro s hs b _ x hx hx'
    rw [show s = realScan Nat from List.mem_singleton.1 hs] at hx hx'
    have h1 : x = fun _ => -1 := List.mem_singleton.1 hx
    have h2 := congrFun ((hb x hx').symm.trans h1) 0
    exact absurd h2 (by norm_num)

end Ndt
