import Verif.Props.AxesSamples

/-!
Property theorems C92 for all kinds of maps: the lattice displaced by half cells.
-/

namespace Ndt
open St Spec

section
variable {K : Type} [Field K] [LinearOrder K] [IsStrictOrderedRing K] [FloorRing K] {d : Nat}

theorem movedMask (t : Idx d) : (Nat.ofBits fun a => decide (t a % 2 = 1)) < 2 ^ d ∧ ∀ a : Fin d, (Nat.ofBits fun a => decide (t a % 2 = 1)).testBit a.1 = decide (t a % 2 = 1) :=
  ⟨Nat.ofBits_lt_two_pow _, fun a => Nat.testBit_ofBits_lt _ a.1 a.2⟩

theorem movedGrid_lt (t : Idx d) {c : Nat} (hc : c < 2 ^ d) : movedGrid t c < 2 ^ d := Nat.xor_lt_two_pow hc (movedMask t).1

omit [LinearOrder K] [IsStrictOrderedRing K] [FloorRing K] in
theorem sum_movedGrid (t : Idx d) (f : Nat → K) : ∑ c ∈ Finset.range (2 ^ d), f (movedGrid t c) = ∑ c ∈ Finset.range (2 ^ d), f c := sum_xor _ (movedMask t).1 f

theorem movedBundle_injective (t : Idx d) : Function.Injective (movedBundle (d := d) t) := fun p q h => by
  funext a
  have := congrFun h a
  unfold movedBundle at this
  omega

theorem inCell_movedGrid (t : Idx d) (r : K) (c : Nat) (i : Idx d) (q : Pt K d) : InCell r (movedGrid t c) (movedCell t c i) (translate (displacement r t) q) ↔ InCell r c i q :=
  inCell_moved (movedMask t).2 r _ (fun _ => rfl) c i q

omit [IsStrictOrderedRing K] [FloorRing K] in
theorem hat_movedGrid [CharZero K] (t : Idx d) (r : K) (c : Nat) (i : Idx d) (q : Pt K d) : hat r (movedGrid t c) (movedCell t c i) (translate (displacement r t) q) = hat r c i q :=
  hat_moved (movedMask t).2 r _ (fun _ => rfl) c i q

theorem inBundle_moved (t : Idx d) (r : K) (b : Idx d) (q : Pt K d) : InBundle r (movedBundle t b) (translate (displacement r t) q) ↔ InBundle r b q := by
  refine forall_congr' fun a => ?_
  unfold translate displacement movedBundle
  push_cast
  rw [show ((b a : K) + t a) * (r / 2) = b a * (r / 2) + r / 2 * t a by ring, show ((b a : K) + t a + 1) * (r / 2) = (b a + 1) * (r / 2) + r / 2 * t a by ring]
  exact and_congr (add_le_add_iff_right _) (add_lt_add_iff_right _)

theorem region_moved (t : Idx d) (r : K) (k : Kind d) (q : Pt K d) : Region r (movedKind t k) (translate (displacement r t) q) ↔ Region r k q := by
  cases k with
  | dynamic _ _ => exact Iff.rfl
  | static size lo =>
    show (∀ a, _) ↔ ∀ a, _
    refine forall_congr' fun a => ?_
    unfold translate displacement movedBundle
    push_cast
    rw [show ((lo a : K) + t a) * (r / 2) = lo a * (r / 2) + r / 2 * t a by ring, show ((lo a : K) + t a + 2 * (size a : K) - 1) * (r / 2) = (lo a + 2 * (size a : K) - 1) * (r / 2) + r / 2 * t a by ring]
    exact and_congr (add_le_add_iff_right _) (add_lt_add_iff_right _)

theorem validBundle_moved (t : Idx d) (k : Kind d) (b : Idx d) : ValidBundle (movedKind t k) (movedBundle t b) ↔ ValidBundle k b := by
  cases k with
  | dynamic _ _ => exact Iff.rfl
  | static size lo =>
    show (∀ a, _) ↔ ∀ a, _
    refine forall_congr' fun a => ?_
    unfold movedBundle
    omega

theorem bundleInCell_moved (t : Idx d) (r : K) (b : Idx d) (c : Nat) (i : Idx d) : BundleInCell r (movedBundle t b) (movedGrid t c) (movedCell t c i) ↔ BundleInCell r b c i := by
  have back : ∀ p : Pt K d, translate (displacement r t) (fun a => p a - displacement r t a) = p := fun p => funext fun a => sub_add_cancel _ _
  constructor
  · intro h p hp
    exact (inCell_movedGrid t r c i p).1 (h _ ((inBundle_moved t r b p).2 hp))
  · intro h p hp
    rw [← back p] at hp ⊢
    exact (inCell_movedGrid t r c i _).2 (h _ ((inBundle_moved t r b _).1 hp))

theorem acceptedPoints_moved {t : Idx d} {g g' : Geo K d} (hg : Displaced t g g') (k : Kind d) (pose : Pt K d → Pt K d) (cloud : List (Pt K d)) :
    acceptedPoints g' (movedKind t k) pose cloud = (acceptedPoints g k pose cloud).map (translate (displacement g.r t)) := by
  classical
  unfold acceptedPoints
  rw [hg.normal, hg.r, show g'.toMap = translate (displacement g.r t) ∘ g.toMap from funext hg.toMap, ← List.map_map, ← Multiset.map_coe, Multiset.filter_map]
  exact congrArg _ (Multiset.filter_congr fun p _ => region_moved t g.r k p)

theorem accepted_displaced {t : Idx d} {g g' : Geo K d} (hg : Displaced t g g') (k : Kind d) {ops ops' : List (GridOp K d)} (h : List.Forall₂ DisplacedOp ops ops') :
    accepted g' (movedKind t k) ops' = (accepted g k ops).map (translate (displacement g.r t)) := by
  induction h with
  | nil => rfl
  | cons ho _ ih =>
    cases ho with
    | core _ _ => exact ih
    | insert pose cloud =>
      show acceptedPoints _ _ _ _ + accepted _ _ _ = (acceptedPoints _ _ _ _ + accepted _ _ _).map _
      rw [ih, acceptedPoints_moved hg, Multiset.map_add]

/-- **C92** (contents of NDT maps). Two NDT maps of any kind whose coordinates (and whose regions, for static maps) differ by `t` half cells, an arbitrary integer vector, are given the same insertions. Then every cell of the one map is a cell of
the other, possibly in another of its grids, and holds the same points. -/
theorem C92_contents (t : Idx d) (k : Kind d) (g g' : Geo K d) (hr : 0 < g.r) (hg : Displaced t g g') (exp exp' : Multiset (Pt K d) → Bool) (ops ops' : List (GridOp K d)) (hops : List.Forall₂ DisplacedOp ops ops')
    (st : St k.backend (Multiset (Pt K d))) (h : gridRun g k.dyn exp ops (k.init _) = some st)
    (st' : St (movedKind t k).backend (Multiset (Pt K d))) (h' : gridRun g' (movedKind t k).dyn exp' ops' ((movedKind t k).init _) = some st')
    (c : Nat) (hc : c < 2 ^ d) (i : Idx d) :
    (st'.content (movedGrid t c) (movedCell t c i)).getD 0 = ((st.content c i).getD 0).map (translate (displacement g.r t)) := by
  classical
  rw [C10_contents_exact k g hr exp ops st h c hc i, C10_contents_exact (movedKind t k) g' (hg.r ▸ hr) exp' ops' st' h' _ (movedGrid_lt t hc), accepted_displaced hg k hops, Multiset.filter_map, hg.r]
  exact congrArg _ (Multiset.filter_congr fun p _ => inCell_movedGrid t g.r c i p)

/-- **C92** (samples of NDT maps of any kind). After neighbourhood allocation, possibly followed by lookups and further allocations, both maps have the same field in the world, if the density is invariant under translations. -/
theorem C92_samples (t : Idx d) (k : Kind d) (g g' : Geo K d) (hr : 0 < g.r) (hg : Displaced t g g') (exp : Multiset (Pt K d) → Bool) (hexp : exp 0 = false) (ops ops' : List (GridOp K d))
    (hops : List.Forall₂ DisplacedOp ops ops') (more more' : List (CoreOp d))
    (st : St k.backend (Multiset (Pt K d))) (h : gridRun g k.dyn exp (expandedHistory ops more) (k.init _) = some st)
    (st' : St (movedKind t k).backend (Multiset (Pt K d))) (h' : gridRun g' (movedKind t k).dyn exp (expandedHistory ops' more') ((movedKind t k).init _) = some st')
    (dens : Multiset (Pt K d) → Pt K d → K) (hd : ∀ s q, exp s = false → dens s q = 0) (hdt : ∀ v s q, dens (s.map (translate v)) (translate v q) = dens s q)
    (p : Pt K d) (hp : Region g.r k (g.toMap p)) (x x' : K) :
    (sampleNNAt g k.dyn dens p st = some x → sampleNNAt g' (movedKind t k).dyn dens p st' = some x' → x' = x) ∧
    (sampleBilinearAt g k.dyn dens p st = some x → sampleBilinearAt g' (movedKind t k).dyn dens p st' = some x' → x' = x) := by
  have hp' : Region g'.r (movedKind t k) (g'.toMap p) := by rw [hg.r, hg.toMap]; exact (region_moved t g.r k _).2 hp
  obtain ⟨a1, a2⟩ := C90_field_of_points k g hr exp hexp ops more st h dens hd p hp x
  obtain ⟨b1, b2⟩ := C90_field_of_points (movedKind t k) g' (hg.r ▸ hr) exp hexp ops' more' st' h' dens hd p hp' x'
  rw [accepted_displaced hg k hops, hg.toMap p, hg.r] at b1 b2
  have key : ∀ c, dens (cellMates g.r ((accepted g k ops).map (translate (displacement g.r t))) (movedGrid t c) (translate (displacement g.r t) (g.toMap p))) (translate (displacement g.r t) (g.toMap p)) =
      dens (cellMates g.r (accepted g k ops) c (g.toMap p)) (g.toMap p) := by
    intro c
    unfold movedGrid
    rw [cellMates_moved (movedMask t).2 hr (displacement g.r t) (fun _ => rfl), hdt]
  constructor
  · intro hx hx'
    rw [a1 hx, b1 hx', ← sum_movedGrid t]
    exact congrArg (· / _) (Finset.sum_congr rfl fun c _ => key c)
  · intro hx hx'
    have hi : ∀ c, InCell g.r c (generateIndex (toBundleIndex g.r (g.toMap p)) c) (g.toMap p) := fun c => (C01_point_in_selected_cell hr _ c _).1 rfl
    have hi' : ∀ c, InCell g.r c (generateIndex (toBundleIndex g.r (translate (displacement g.r t) (g.toMap p))) c) (translate (displacement g.r t) (g.toMap p)) := fun c => (C01_point_in_selected_cell hr _ c _).1 rfl
    rw [a2 hx _ hi, b2 hx' _ hi', ← sum_movedGrid t]
    refine Finset.sum_congr rfl fun c _ => ?_
    rw [key c, cell_index hr _ _ _ ((inCell_movedGrid t g.r c _ _).2 (hi c)), hat_movedGrid]

/-! ### occupancy maps -/
variable {W E : Type} [AddCommMonoid W]

theorem hits_moved {t : Idx d} {g g' : Geo K d} (hg : Displaced t g g') (k : Kind d) {s s' : Scan K d W} (h : DisplacedScan t g s s') :
    hits g' (movedKind t k) s' = (hits g k s).map (translate (displacement g.r t)) := by
  unfold hits
  rw [h.pose, h.cloud, hg.normal, acceptedPoints_moved hg]

theorem hitsIn_moved {t : Idx d} {g g' : Geo K d} (hg : Displaced t g g') (k : Kind d) {s s' : Scan K d W} (h : DisplacedScan t g s s') (b : Idx d) :
    hitsIn g' (movedKind t k) s' (movedBundle t b) = (hitsIn g k s b).map (translate (displacement g.r t)) := by
  classical
  unfold hitsIn
  rw [hits_moved hg k h, Multiset.filter_map, hg.r]
  exact congrArg _ (Multiset.filter_congr fun p _ => inBundle_moved t g.r b p)

theorem hitBundles_moved {t : Idx d} {g g' : Geo K d} (hg : Displaced t g g') (hr : 0 < g.r) (k : Kind d) {s s' : Scan K d W} (h : DisplacedScan t g s s') :
    hitBundles g' (movedKind t k) s' = (hitBundles g k s).image (movedBundle t) := by
  ext b
  rw [mem_hitBundles_iff g' (hg.r ▸ hr), Finset.mem_image]
  have back : movedBundle t (fun a => b a - t a) = b := funext fun a => sub_add_cancel _ _
  constructor
  · intro hb
    refine ⟨_, (mem_hitBundles_iff g hr k s _).2 fun e => hb ?_, back⟩
    rw [← back, hitsIn_moved hg k h, e, Multiset.map_zero]
  · rintro ⟨b', hb', rfl⟩ e
    rw [hitsIn_moved hg k h, Multiset.map_eq_zero] at e
    exact (mem_hitBundles_iff g hr k s b').1 hb' e

theorem rayOf_moved {t : Idx d} {g g' : Geo K d} (hg : Displaced t g g') (hr : 0 < g.r) (k : Kind d) {s s' : Scan K d W} (h : DisplacedScan t g s s') (b : Idx d) (hb : b ∈ hitBundles g k s) :
    rayOf g' (movedKind t k) s' (movedBundle t b) = (rayOf g k s b).map (movedBundle t) := by
  classical
  unfold rayOf
  have hm : hitsIn g k s b ≠ 0 := (mem_hitBundles_iff g hr k s b).1 hb
  have hc : ((hitsIn g k s b).card : K) ≠ 0 := Nat.cast_ne_zero.2 (Multiset.card_pos.2 hm).ne'
  rw [← h.ray, hitsIn_moved hg k h, h.pose, hg.toMap]
  congr 1
  funext a
  unfold meanOf translate
  rw [Multiset.map_map, Multiset.card_map, Function.comp_def, Multiset.sum_map_add, Multiset.map_const', Multiset.sum_replicate, nsmul_eq_mul]
  field_simp

theorem misses_moved {t : Idx d} {g g' : Geo K d} (hg : Displaced t g g') (skip : Bool) (hr : 0 < g.r) (k : Kind d) {s s' : Scan K d W} (h : DisplacedScan t g s s') (c : Nat) (i : Idx d) :
    misses skip g' (movedKind t k) s' (movedGrid t c) (movedCell t c i) = misses skip g k s c i := by
  unfold misses
  rw [hitBundles_moved hg hr k h, Finset.sum_image fun a _ b _ e => movedBundle_injective t e, hg.r]
  refine Finset.sum_congr rfl fun b hb => ?_
  rw [rayOf_moved hg hr k h b hb, hitsIn_moved hg k h, Multiset.card_map, List.filter_map, List.length_map]
  refine congrArg (fun l => List.length l * _) (List.filter_congr fun x _ => ?_)
  simp only [Function.comp]
  rw [decide_eq_decide]
  refine and_congr (validBundle_moved t k x) (and_congr (bundleInCell_moved t g.r x c i) (imp_congr_right fun _ => not_congr ?_))
  rw [Finset.mem_image]
  exact ⟨fun ⟨y, hy, e⟩ => movedBundle_injective t e ▸ hy, fun hx => ⟨x, hx, rfl⟩⟩

omit [LinearOrder K] [IsStrictOrderedRing K] [FloorRing K] [AddCommMonoid W] in
theorem scans_moved {t : Idx d} {g : Geo K d} {ops ops' : List (OccMapOp K d W E)} (h : List.Forall₂ (DisplacedOccOp t g) ops ops') :
    List.Forall₂ (DisplacedScan t g) (scansOf ops) (scansOf ops') ∧ (∀ op ∈ ops, op.Plain) ∧ ∀ op ∈ ops', op.Plain := by
  induction h with
  | nil => exact ⟨.nil, by simp, by simp⟩
  | cons ho _ ih =>
    obtain ⟨i1, i2, i3⟩ := ih
    cases ho with
    | core op op' => exact ⟨i1, List.forall_mem_cons.2 ⟨trivial, i2⟩, List.forall_mem_cons.2 ⟨trivial, i3⟩⟩
    | insert s s' h => exact ⟨.cons h i1, List.forall_mem_cons.2 ⟨trivial, i2⟩, List.forall_mem_cons.2 ⟨trivial, i3⟩⟩

theorem hits_sum_moved {t : Idx d} {g g' : Geo K d} (hg : Displaced t g g') (k : Kind d) {l l' : List (Scan K d W)} (h : List.Forall₂ (DisplacedScan t g) l l') :
    (l'.map fun s => hits g' (movedKind t k) s).sum = ((l.map fun s => hits g k s).sum).map (translate (displacement g.r t)) := by
  induction h with
  | nil => rfl
  | cons h _ ih => rw [List.map_cons, List.map_cons, List.sum_cons, List.sum_cons, ih, hits_moved hg k h, Multiset.map_add]

theorem misses_sum_moved {t : Idx d} {g g' : Geo K d} (hg : Displaced t g g') (skip : Bool) (hr : 0 < g.r) (k : Kind d) {l l' : List (Scan K d W)} (h : List.Forall₂ (DisplacedScan t g) l l') (c : Nat) (i : Idx d) :
    (l'.map fun s => misses skip g' (movedKind t k) s (movedGrid t c) (movedCell t c i)).sum = (l.map fun s => misses skip g k s c i).sum := by
  induction h with
  | nil => rfl
  | cons h _ ih => rw [List.map_cons, List.map_cons, List.sum_cons, List.sum_cons, ih, misses_moved hg skip hr k h]

open scoped Classical in
theorem hits_cell_moved {t : Idx d} {g g' : Geo K d} (hg : Displaced t g g') (k : Kind d) {l l' : List (Scan K d W)} (h : List.Forall₂ (DisplacedScan t g) l l') (c : Nat) (i : Idx d) :
    ((l'.map fun s => hits g' (movedKind t k) s).sum).filter (InCell g'.r (movedGrid t c) (movedCell t c i)) = (((l.map fun s => hits g k s).sum).filter (InCell g.r c i)).map (translate (displacement g.r t)) := by
  rw [hits_sum_moved hg k h, Multiset.filter_map, hg.r]
  exact congrArg _ (Multiset.filter_congr fun p _ => inCell_movedGrid t g.r c i p)

/-- **C92** (contents of occupancy maps). Two occupancy maps of any kind whose coordinates differ by `t` half cells are given the same scans. If the line iterators visit the same bundles of space, then every cell of the one map is a cell of the
other, with the same hits, the same number of hits and the same number of misses. -/
theorem C92_occupancy_contents (t : Idx d) (k : Kind d) (g g' : Geo K d) (hr : 0 < g.r) (hg : Displaced t g g') (ray ray' : Pt K d → Pt K d → List (Idx d)) (exp exp' : Occ Nat (Pt K d) → Bool)
    (ops ops' : List (OccMapOp K d Nat (Pt K d))) (hops : List.Forall₂ (DisplacedOccOp t g) ops ops')
    (st : St k.backend (Occ Nat (Pt K d))) (h : occRun (occFlavour K d) g k.dyn ray exp ops (k.init _) = some st)
    (st' : St (movedKind t k).backend (Occ Nat (Pt K d))) (h' : occRun (occFlavour K d) g' (movedKind t k).dyn ray' exp' ops' ((movedKind t k).init _) = some st')
    (c : Nat) (hc : c < 2 ^ d) (i : Idx d) :
    ((st'.content (movedGrid t c) (movedCell t c i)).getD Occ.new).samples = ((st.content c i).getD Occ.new).samples.map (translate (displacement g.r t)) ∧
    ((st'.content (movedGrid t c) (movedCell t c i)).getD Occ.new).numOccupied = ((st.content c i).getD Occ.new).numOccupied ∧
    ((st'.content (movedGrid t c) (movedCell t c i)).getD Occ.new).numFree = ((st.content c i).getD Occ.new).numFree := by
  classical
  obtain ⟨hs, hp, hp'⟩ := scans_moved hops
  obtain ⟨a1, a2, a3⟩ := C27_occupancy_counts k g hr ray exp ops hp st h c hc i
  obtain ⟨b1, b2, b3⟩ := C27_occupancy_counts (movedKind t k) g' (hg.r ▸ hr) ray' exp' ops' hp' st' h' _ (movedGrid_lt t hc) (movedCell t c i)
  have e := hits_cell_moved hg k hs c i
  refine ⟨by rw [a2, b2, e], by rw [a3, b3, e, Multiset.card_map], by rw [a1, b1, misses_sum_moved hg false hr k hs]⟩

/-- **C92** (contents of weighted occupancy maps): as `C92_occupancy_contents`. -/
theorem C92_weighted_contents (t : Idx d) (k : Kind d) (g g' : Geo K d) (hr : 0 < g.r) (hg : Displaced t g g') (ray ray' : Pt K d → Pt K d → List (Idx d)) (exp exp' : Occ K (Pt K d × K) → Bool)
    (ops ops' : List (OccMapOp K d K (Pt K d × K))) (hops : List.Forall₂ (DisplacedOccOp t g) ops ops')
    (st : St k.backend (Occ K (Pt K d × K))) (h : occRun (weightedFlavour K d) g k.dyn ray exp ops (k.init _) = some st)
    (st' : St (movedKind t k).backend (Occ K (Pt K d × K))) (h' : occRun (weightedFlavour K d) g' (movedKind t k).dyn ray' exp' ops' ((movedKind t k).init _) = some st')
    (c : Nat) (hc : c < 2 ^ d) (i : Idx d) :
    ((st'.content (movedGrid t c) (movedCell t c i)).getD Occ.new).samples = ((st.content c i).getD Occ.new).samples.map (fun x => (translate (displacement g.r t) x.1, x.2)) ∧
    ((st'.content (movedGrid t c) (movedCell t c i)).getD Occ.new).weightOccupied = ((st.content c i).getD Occ.new).weightOccupied ∧
    ((st'.content (movedGrid t c) (movedCell t c i)).getD Occ.new).numFree = ((st.content c i).getD Occ.new).numFree := by
  classical
  obtain ⟨hs, hp, hp'⟩ := scans_moved hops
  obtain ⟨a1, a2, a3⟩ := C27_weighted_counts k g hr ray exp ops hp st h c hc i
  obtain ⟨b1, b2, b3⟩ := C27_weighted_counts (movedKind t k) g' (hg.r ▸ hr) ray' exp' ops' hp' st' h' _ (movedGrid_lt t hc) (movedCell t c i)
  have e := hits_cell_moved hg k hs c i
  refine ⟨?_, by rw [a3, b3, e, Multiset.card_map], by rw [a1, b1, misses_sum_moved hg true hr k hs]⟩
  rw [a2, b2, e, Multiset.map_map, Multiset.map_map]
  rfl

end

section
variable {K : Type} [Field K] [LinearOrder K] [IsStrictOrderedRing K] [FloorRing K] {d : Nat} {M : Type}

/-- **C92** (samples of occupancy maps of any kind). If the density is invariant under translations and the occupancy does not depend on the places of the hits, then after neighbourhood allocation, possibly followed by lookups and further
allocations, both maps have the same field in the world. -/
theorem C92_occupancy_samples (t : Idx d) (k : Kind d) (g g' : Geo K d) (hr : 0 < g.r) (hg : Displaced t g g') (ray ray' : Pt K d → Pt K d → List (Idx d)) (exp : Occ Nat (Pt K d) → Bool) (hexp : exp default = false)
    (ops ops' : List (OccMapOp K d Nat (Pt K d))) (hops : List.Forall₂ (DisplacedOccOp t g) ops ops')
    (s0 s1 st : St k.backend (Occ Nat (Pt K d))) (h0 : occRun (occFlavour K d) g k.dyn ray exp ops (k.init _) = some s0) (h1 : allocPartials k.dyn exp s0 = some s1) (more : List (CoreOp d))
    (h : coreRun k.dyn exp more s1 = some st)
    (s0' s1' st' : St (movedKind t k).backend (Occ Nat (Pt K d))) (h0' : occRun (occFlavour K d) g' (movedKind t k).dyn ray' exp ops' ((movedKind t k).init _) = some s0')
    (h1' : allocPartials (movedKind t k).dyn exp s0' = some s1') (more' : List (CoreOp d)) (h' : coreRun (movedKind t k).dyn exp more' s1' = some st')
    (dens : Multiset (Pt K d) → Pt K d → K) (occ : M → Occ Nat (Pt K d) → K) (m : M) (hd : ∀ (o : Occ Nat (Pt K d)) s q, o.data = some s → exp o = false → dens s q = 0)
    (hdens : ∀ v s q, dens (s.map (translate v)) (translate v q) = dens s q) (hocc : ∀ v o, occ m (mapHits (translate v) o) = occ m o)
    (p : Pt K d) (hp : Region g.r k (g.toMap p)) (x x' : K) :
    (occSampleNNAt g k.dyn dens occ p (some m) st = .ok (some x) → occSampleNNAt g' (movedKind t k).dyn dens occ p (some m) st' = .ok (some x') → x' = x) ∧
    (occSampleBilinearAt g k.dyn dens occ p (some m) st = .ok (some x) → occSampleBilinearAt g' (movedKind t k).dyn dens occ p (some m) st' = .ok (some x') → x' = x) := by
  refine corresponding_field (occFlavour K d) (translate (displacement g.r t)) k (movedKind t k) g g' hr (hg.r ▸ hr) ray ray' exp hexp ops ops' s0 s1 st h0 h1 more h s0' s1' st' h0' h1' more' h' dens occ m hd p p hp ?_ ?_ (hocc _)
    (movedGrid t) (sum_movedGrid t) (movedCell t) ?_ ?_ (fun c hc i => ?_) x x'
  · rw [hg.r, hg.toMap]
    exact (region_moved t g.r k _).2 hp
  · intro s
    rw [hg.toMap]
    exact hdens _ s _
  · intro c i hi
    rw [hg.r, hg.toMap]
    exact (inCell_movedGrid t g.r c i _).2 hi
  · intro c i
    rw [hg.r, hg.toMap]
    exact hat_movedGrid t g.r c i _
  · obtain ⟨e1, -, e2⟩ := C92_occupancy_contents t k g g' hr hg ray ray' exp exp ops ops' hops s0 h0 s0' h0' c hc i
    exact occ_mapHits_of_counts (occFlavour K d) _ k (movedKind t k) g g' ray ray' exp exp ops ops' s0 h0 s0' h0' c _ hc (movedGrid_lt t hc) i _ e1 e2

/-- **C92** (samples of weighted occupancy maps of any kind): as `C92_occupancy_samples`. -/
theorem C92_weighted_samples (t : Idx d) (k : Kind d) (g g' : Geo K d) (hr : 0 < g.r) (hg : Displaced t g g') (ray ray' : Pt K d → Pt K d → List (Idx d)) (exp : Occ K (Pt K d × K) → Bool) (hexp : exp default = false)
    (ops ops' : List (OccMapOp K d K (Pt K d × K))) (hops : List.Forall₂ (DisplacedOccOp t g) ops ops')
    (s0 s1 st : St k.backend (Occ K (Pt K d × K))) (h0 : occRun (weightedFlavour K d) g k.dyn ray exp ops (k.init _) = some s0) (h1 : allocPartials k.dyn exp s0 = some s1) (more : List (CoreOp d))
    (h : coreRun k.dyn exp more s1 = some st)
    (s0' s1' st' : St (movedKind t k).backend (Occ K (Pt K d × K))) (h0' : occRun (weightedFlavour K d) g' (movedKind t k).dyn ray' exp ops' ((movedKind t k).init _) = some s0')
    (h1' : allocPartials (movedKind t k).dyn exp s0' = some s1') (more' : List (CoreOp d)) (h' : coreRun (movedKind t k).dyn exp more' s1' = some st')
    (dens : Multiset (Pt K d × K) → Pt K d → K) (occ : M → Occ K (Pt K d × K) → K) (m : M) (hd : ∀ (o : Occ K (Pt K d × K)) s q, o.data = some s → exp o = false → dens s q = 0)
    (hdens : ∀ v s q, dens (s.map fun x => (translate v x.1, x.2)) (translate v q) = dens s q) (hocc : ∀ v o, occ m (mapHits (fun x => (translate v x.1, x.2)) o) = occ m o)
    (p : Pt K d) (hp : Region g.r k (g.toMap p)) (x x' : K) :
    (occSampleNNAt g k.dyn dens occ p (some m) st = .ok (some x) → occSampleNNAt g' (movedKind t k).dyn dens occ p (some m) st' = .ok (some x') → x' = x) ∧
    (occSampleBilinearAt g k.dyn dens occ p (some m) st = .ok (some x) → occSampleBilinearAt g' (movedKind t k).dyn dens occ p (some m) st' = .ok (some x') → x' = x) := by
  refine corresponding_field (weightedFlavour K d) (fun x => (translate (displacement g.r t) x.1, x.2)) k (movedKind t k) g g' hr (hg.r ▸ hr) ray ray' exp hexp ops ops' s0 s1 st h0 h1 more h s0' s1' st' h0' h1' more' h' dens occ m hd p p hp ?_ ?_
    (hocc _) (movedGrid t) (sum_movedGrid t) (movedCell t) ?_ ?_ (fun c hc i => ?_) x x'
  · rw [hg.r, hg.toMap]
    exact (region_moved t g.r k _).2 hp
  · intro s
    rw [hg.toMap]
    exact hdens _ s _
  · intro c i hi
    rw [hg.r, hg.toMap]
    exact (inCell_movedGrid t g.r c i _).2 hi
  · intro c i
    rw [hg.r, hg.toMap]
    exact hat_movedGrid t g.r c i _
  · obtain ⟨e1, -, e2⟩ := C92_weighted_contents t k g g' hr hg ray ray' exp exp ops ops' hops s0 h0 s0' h0' c hc i
    exact occ_mapHits_of_counts (weightedFlavour K d) _ k (movedKind t k) g g' ray ray' exp exp ops ops' s0 h0 s0' h0' c _ hc (movedGrid_lt t hc) i _ e1 e2

end

/-! ### Non-vacuity -/

/-- one half cell along the first axis, minus two along the second -/
def halfT : Idx 2 := ![1, -2]
def halfGeo : Geo ℚ 2 := { r := 1, toMap := fun p => translate (displacement 1 halfT) p, normal := fun _ => true }
/-- the scan of `offScan`, with another hash order and the ray through the same bundle of space -/
def halfScan (W : Type) : Scan ℚ 2 W :=
  { pose := fun p => p + ![1 / 5, -1 / 5], cloud := [![0, 0], ![2 / 5, 1 / 10]], ray := fun _ _ => [![1, -3]], order := List.reverse, order_perm := fun l => List.reverse_perm l }

theorem halfGeo_displaced : Displaced halfT axesGeo halfGeo := ⟨rfl, rfl, fun _ => rfl⟩
theorem halfScan_displaced (W : Type) : DisplacedScan halfT axesGeo (offScan W) (halfScan W) := by
  refine ⟨rfl, rfl, fun p q => ?_⟩
  show [![1, -3]] = List.map (movedBundle halfT) [![0, -1]]
  decide +kernel

theorem axesOE_half_runs : (axesOE (movedKind halfT axesKind) halfGeo (halfScan Nat)).isSome = true := by decide +kernel

/-- both maps run; the hits and misses of cell (0, -1) of grid 1 are those of cell (1 - 1, -1 - 1) of grid 0 of the displaced map; the samples are equal and positive -/
example : List.Forall₂ (DisplacedOccOp halfT axesGeo) [(.insert (offScan Nat) : OccMapOp ℚ 2 Nat (Pt ℚ 2))] [.insert (halfScan Nat)] ∧
    movedGrid halfT 1 = 0 ∧ movedCell halfT 1 ![0, -1] = ![0, -2] ∧
    ((((axesOE axesKind axesGeo (offScan Nat)).get axesOE_runs).1.content 1 ![0, -1]).getD Occ.new).numFree = 2 ∧
    ((((axesOE (movedKind halfT axesKind) halfGeo (halfScan Nat)).get axesOE_half_runs).1.content 0 ![0, -2]).getD Occ.new).numFree = 2 ∧
    (∀ v s q, axesDens (s.map (translate v)) (translate v q) = axesDens s q) ∧ (∀ v o, axesOcc () (mapHits (translate v) o) = axesOcc () o) ∧
    occSampleNNAt halfGeo (movedKind halfT axesKind).dyn axesDens axesOcc ![1 / 5, -1 / 5] (some ()) ((axesOE (movedKind halfT axesKind) halfGeo (halfScan Nat)).get axesOE_half_runs).2 = .ok (some (2 / 3)) := by
  have h1 : sampleWith (movedKind halfT axesKind).dyn (fun _ => divCount ℚ 2) (occValue axesDens (axesOcc ()) (halfGeo.toMap ![1 / 5, -1 / 5])) (toBundleIndex halfGeo.r (halfGeo.toMap ![1 / 5, -1 / 5]))
    ((axesOE (movedKind halfT axesKind) halfGeo (halfScan Nat)).get axesOE_half_runs).2 = some (2 / 3) := by decide +kernel
  refine ⟨.cons (.insert _ _ (halfScan_displaced Nat)) .nil, by decide +kernel, by decide +kernel, by decide +kernel, by decide +kernel, fun v s q => ?_, fun v o => ?_, congrArg Except.ok h1⟩
  · unfold axesDens
    rw [Multiset.card_map]
  · unfold axesOcc mapHits
    rw [Occ.numOccupied_eq, Occ.numOccupied_eq]
    unfold Occ.samples Occ.numFree
    cases o.data with
    | none => rfl
    | some s => simp only [Option.map_some, Multiset.card_map]

end Ndt
