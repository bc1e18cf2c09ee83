import Verif.Props.Mirror
import Verif.Props.Windows

/-!
Property theorems C106, C110: samples of occupancy maps with permuted, mirrored or turned axes.
-/

namespace Ndt
open St Spec

section
variable {K : Type} [Field K] [LinearOrder K] [IsStrictOrderedRing K] [FloorRing K] {d : Nat} {W E M : Type} [AddCommMonoid W]

/-- a distribution is determined by its hits and misses, also if the hits of two maps are related by a function -/
theorem occ_mapHits_of_counts (fl : Flavour K d W E) (F : E → E) (k k' : Kind d) (g g' : Geo K d) (ray ray' : Pt K d → Pt K d → List (Idx d)) (exp exp' : Occ W E → Bool) (ops ops' : List (OccMapOp K d W E))
    (st : St k.backend (Occ W E)) (h : occRun fl g k.dyn ray exp ops (k.init _) = some st) (st' : St k'.backend (Occ W E)) (h' : occRun fl g' k'.dyn ray' exp' ops' (k'.init _) = some st')
    (c c' : Nat) (hc : c < 2 ^ d) (hc' : c' < 2 ^ d) (i i' : Idx d) (e1 : ((st'.content c' i').getD Occ.new).samples = ((st.content c i).getD Occ.new).samples.map F)
    (e2 : ((st'.content c' i').getD Occ.new).numFree = ((st.content c i).getD Occ.new).numFree) : (st'.content c' i').getD Occ.new = mapHits F ((st.content c i).getD Occ.new) := by
  have n : ((st.content c i).getD Occ.new).data = none ↔ ((st.content c i).getD Occ.new).samples = 0 := by
    cases hx : st.content c i with
    | none => exact ⟨fun _ => rfl, fun _ => rfl⟩
    | some o => exact C27_no_empty_distribution fl k g ray exp ops st h c hc i o hx
  have n' : ((st'.content c' i').getD Occ.new).data = none ↔ ((st'.content c' i').getD Occ.new).samples = 0 := by
    cases hx : st'.content c' i' with
    | none => exact ⟨fun _ => rfl, fun _ => rfl⟩
    | some o => exact C27_no_empty_distribution fl k' g' ray' exp' ops' st' h' c' hc' i' o hx
  generalize (st.content c i).getD Occ.new = o at *
  generalize (st'.content c' i').getD Occ.new = o' at *
  have hdat : o'.data = o.data.map (Multiset.map F) := by
    by_cases h0 : o.samples = 0
    · rw [n.2 h0, n'.2 (by rw [e1, h0]; rfl)]
      rfl
    · have h0' : o'.samples ≠ 0 := fun hz => h0 (Multiset.map_eq_zero.1 (e1 ▸ hz))
      rw [data_of_samples o h0, data_of_samples o' h0', e1]
      rfl
  cases o; cases o'
  simp only [Occ.numFree] at e2
  simp only at hdat
  rw [e2, hdat]
  rfl

/-- Two maps whose distributions at two points correspond to each other have the same samples at these points. -/
theorem corresponding_field (fl : Flavour K d W E) (F : E → E) (k k' : Kind d) (g g' : Geo K d) (hr : 0 < g.r) (hr' : 0 < g'.r) (ray ray' : Pt K d → Pt K d → List (Idx d)) (exp : Occ W E → Bool)
    (hexp : exp default = false) (ops ops' : List (OccMapOp K d W E))
    (s0 s1 st : St k.backend (Occ W E)) (h0 : occRun fl g k.dyn ray exp ops (k.init _) = some s0) (h1 : allocPartials k.dyn exp s0 = some s1) (more : List (CoreOp d)) (h : coreRun k.dyn exp more s1 = some st)
    (s0' s1' st' : St k'.backend (Occ W E)) (h0' : occRun fl g' k'.dyn ray' exp ops' (k'.init _) = some s0') (h1' : allocPartials k'.dyn exp s0' = some s1') (more' : List (CoreOp d)) (h' : coreRun k'.dyn exp more' s1' = some st')
    (dens : Multiset E → Pt K d → K) (occ : M → Occ W E → K) (m : M) (hd : ∀ (o : Occ W E) s q, o.data = some s → exp o = false → dens s q = 0)
    (p p' : Pt K d) (hp : Region g.r k (g.toMap p)) (hp' : Region g'.r k' (g'.toMap p'))
    (hdens : ∀ s, dens (s.map F) (g'.toMap p') = dens s (g.toMap p)) (hocc : ∀ o, occ m (mapHits F o) = occ m o)
    (τ : Nat → Nat) (hτ : ∀ f : Nat → K, ∑ c ∈ Finset.range (2 ^ d), f (τ c) = ∑ c ∈ Finset.range (2 ^ d), f c) (T : Nat → Idx d → Idx d)
    (hT : ∀ c i, InCell g.r c i (g.toMap p) → InCell g'.r (τ c) (T c i) (g'.toMap p')) (hhat : ∀ c i, hat g'.r (τ c) (T c i) (g'.toMap p') = hat g.r c i (g.toMap p))
    (e : ∀ c < 2 ^ d, ∀ i, (s0'.content (τ c) (T c i)).getD Occ.new = mapHits F ((s0.content c i).getD Occ.new)) (x x' : K) :
    (occSampleNNAt g k.dyn dens occ p (some m) st = .ok (some x) → occSampleNNAt g' k'.dyn dens occ p' (some m) st' = .ok (some x') → x' = x) ∧
    (occSampleBilinearAt g k.dyn dens occ p (some m) st = .ok (some x) → occSampleBilinearAt g' k'.dyn dens occ p' (some m) st' = .ok (some x') → x' = x) := by
  have hin : ∀ c, InCell g.r c (generateIndex (toBundleIndex g.r (g.toMap p)) c) (g.toMap p) := fun c => (C01_point_in_selected_cell hr _ c _).1 rfl
  have hin' : ∀ c, InCell g'.r c (generateIndex (toBundleIndex g'.r (g'.toMap p')) c) (g'.toMap p') := fun c => (C01_point_in_selected_cell hr' _ c _).1 rfl
  obtain ⟨a1, a2⟩ := C90_occupancy_field fl k g hr ray exp hexp s0 s1 st ⟨ops, h0⟩ h1 more h dens occ m hd p hp x _ hin
  obtain ⟨b1, b2⟩ := C90_occupancy_field fl k' g' hr' ray' exp hexp s0' s1' st' ⟨ops', h0'⟩ h1' more' h' dens occ m hd p' hp' x' _ hin'
  have hi : ∀ c, generateIndex (toBundleIndex g'.r (g'.toMap p')) (τ c) = T c (generateIndex (toBundleIndex g.r (g.toMap p)) c) := fun c => cell_index hr' _ _ _ (hT c _ (hin c))
  have key : ∀ c < 2 ^ d, (s0'.content (τ c) (T c (generateIndex (toBundleIndex g.r (g.toMap p)) c))).bind (fun o => o.data.map fun s => dens s (g'.toMap p') * occ m o) =
      (s0.content c (generateIndex (toBundleIndex g.r (g.toMap p)) c)).bind (fun o => o.data.map fun s => dens s (g.toMap p) * occ m o) := by
    intro c hc
    have hb : ∀ (q : Pt K d) (x : Option (Occ W E)), x.bind (fun o => o.data.map fun s => dens s q * occ m o) = (x.getD Occ.new).data.map fun s => dens s q * occ m (x.getD Occ.new) := by
      intro q x; cases x <;> rfl
    rw [hb, hb, e c hc, hocc]
    show Option.map _ (Option.map _ _) = _
    rw [Option.map_map]
    refine congrArg (fun f => Option.map f _) (funext fun s => ?_)
    show dens (s.map F) _ * _ = _
    rw [hdens]
  constructor
  · intro hx hx'
    rw [a1 hx, b1 hx', ← hτ]
    exact congrArg (· / _) (Finset.sum_congr rfl fun c hc => by rw [hi c, key c (Finset.mem_range.1 hc)])
  · intro hx hx'
    rw [a2 hx, b2 hx', ← hτ]
    exact Finset.sum_congr rfl fun c hc => by rw [hi c, key c (Finset.mem_range.1 hc), hhat]

end

section
variable {K : Type} [Field K] [LinearOrder K] [IsStrictOrderedRing K] [FloorRing K] {d : Nat} {M : Type}

/-- **C106** (samples of occupancy maps). If density and occupancy treat the axes alike, then after neighbourhood allocation, possibly followed by lookups and further allocations, both maps have the same samples at corresponding points. -/
theorem C106_occupancy_samples (σ : Equiv.Perm (Fin d)) (k : Kind d) (g : Geo K d) (hr : 0 < g.r) (ray ray' : Pt K d → Pt K d → List (Idx d)) (exp : Occ Nat (Pt K d) → Bool) (hexp : exp default = false)
    (ops ops' : List (OccMapOp K d Nat (Pt K d))) (hops : List.Forall₂ (PermutedOccOp σ) ops ops')
    (s0 s1 st : St k.backend (Occ Nat (Pt K d))) (h0 : occRun (occFlavour K d) g k.dyn ray exp ops (k.init _) = some s0) (h1 : allocPartials k.dyn exp s0 = some s1) (more : List (CoreOp d))
    (h : coreRun k.dyn exp more s1 = some st)
    (s0' s1' st' : St (permuteKind σ k).backend (Occ Nat (Pt K d))) (h0' : occRun (occFlavour K d) (permuteGeo σ g) (permuteKind σ k).dyn ray' exp ops' ((permuteKind σ k).init _) = some s0') (h1' : allocPartials (permuteKind σ k).dyn exp s0' = some s1')
    (more' : List (CoreOp d)) (h' : coreRun (permuteKind σ k).dyn exp more' s1' = some st')
    (dens : Multiset (Pt K d) → Pt K d → K) (occ : M → Occ Nat (Pt K d) → K) (m : M) (hd : ∀ (o : Occ Nat (Pt K d)) s q, o.data = some s → exp o = false → dens s q = 0)
    (hdens : ∀ s q, dens (s.map (permute σ)) (permute σ q) = dens s q) (hocc : ∀ o, occ m (mapHits (permute σ) o) = occ m o)
    (p : Pt K d) (hp : Region g.r k (g.toMap p)) (x x' : K) :
    (occSampleNNAt g k.dyn dens occ p (some m) st = .ok (some x) → occSampleNNAt (permuteGeo σ g) (permuteKind σ k).dyn dens occ (permute σ p) (some m) st' = .ok (some x') → x' = x) ∧
    (occSampleBilinearAt g k.dyn dens occ p (some m) st = .ok (some x) → occSampleBilinearAt (permuteGeo σ g) (permuteKind σ k).dyn dens occ (permute σ p) (some m) st' = .ok (some x') → x' = x) := by
  have hq : (permuteGeo σ g).toMap (permute σ p) = permute σ (g.toMap p) := permuteMap_apply σ g.toMap p
  refine corresponding_field (occFlavour K d) (permute σ) k (permuteKind σ k) g (permuteGeo σ g) hr hr ray ray' exp hexp ops ops' s0 s1 st h0 h1 more h s0' s1' st' h0' h1' more' h' dens occ m hd p (permute σ p) hp ?_ ?_ hocc
    (permuteGrid σ) (sum_permuteGrid σ) (fun _ i => permute σ i) ?_ ?_ (fun c hc i => ?_) x x'
  · rw [hq]
    exact (region_permute σ g.r k _).2 hp
  · intro s
    rw [hq]
    exact hdens s _
  · intro c i hi
    rw [hq]
    exact (inCell_permute σ g.r c i _).2 hi
  · intro c i
    rw [hq]
    exact hat_permute σ g.r c i _
  · obtain ⟨e1, -, e2⟩ := C106_occupancy_contents σ k g hr ray ray' exp exp ops ops' hops s0 h0 s0' h0' c hc i
    exact occ_mapHits_of_counts (occFlavour K d) (permute σ) k (permuteKind σ k) g (permuteGeo σ g) ray ray' exp exp ops ops' s0 h0 s0' h0' c _ hc (permuteGrid_lt σ c) i _ e1 e2

/-- **C106** (samples of weighted occupancy maps). If density and occupancy treat the axes alike, then after neighbourhood allocation, possibly followed by lookups and further allocations, both maps have the same samples at corresponding points. -/
theorem C106_weighted_samples (σ : Equiv.Perm (Fin d)) (k : Kind d) (g : Geo K d) (hr : 0 < g.r) (ray ray' : Pt K d → Pt K d → List (Idx d)) (exp : Occ K (Pt K d × K) → Bool) (hexp : exp default = false)
    (ops ops' : List (OccMapOp K d K (Pt K d × K))) (hops : List.Forall₂ (PermutedOccOp σ) ops ops')
    (s0 s1 st : St k.backend (Occ K (Pt K d × K))) (h0 : occRun (weightedFlavour K d) g k.dyn ray exp ops (k.init _) = some s0) (h1 : allocPartials k.dyn exp s0 = some s1) (more : List (CoreOp d))
    (h : coreRun k.dyn exp more s1 = some st)
    (s0' s1' st' : St (permuteKind σ k).backend (Occ K (Pt K d × K))) (h0' : occRun (weightedFlavour K d) (permuteGeo σ g) (permuteKind σ k).dyn ray' exp ops' ((permuteKind σ k).init _) = some s0') (h1' : allocPartials (permuteKind σ k).dyn exp s0' = some s1')
    (more' : List (CoreOp d)) (h' : coreRun (permuteKind σ k).dyn exp more' s1' = some st')
    (dens : Multiset (Pt K d × K) → Pt K d → K) (occ : M → Occ K (Pt K d × K) → K) (m : M) (hd : ∀ (o : Occ K (Pt K d × K)) s q, o.data = some s → exp o = false → dens s q = 0)
    (hdens : ∀ s q, dens (s.map (fun x => (permute σ x.1, x.2))) (permute σ q) = dens s q) (hocc : ∀ o, occ m (mapHits (fun x => (permute σ x.1, x.2)) o) = occ m o)
    (p : Pt K d) (hp : Region g.r k (g.toMap p)) (x x' : K) :
    (occSampleNNAt g k.dyn dens occ p (some m) st = .ok (some x) → occSampleNNAt (permuteGeo σ g) (permuteKind σ k).dyn dens occ (permute σ p) (some m) st' = .ok (some x') → x' = x) ∧
    (occSampleBilinearAt g k.dyn dens occ p (some m) st = .ok (some x) → occSampleBilinearAt (permuteGeo σ g) (permuteKind σ k).dyn dens occ (permute σ p) (some m) st' = .ok (some x') → x' = x) := by
  have hq : (permuteGeo σ g).toMap (permute σ p) = permute σ (g.toMap p) := permuteMap_apply σ g.toMap p
  refine corresponding_field (weightedFlavour K d) (fun x => (permute σ x.1, x.2)) k (permuteKind σ k) g (permuteGeo σ g) hr hr ray ray' exp hexp ops ops' s0 s1 st h0 h1 more h s0' s1' st' h0' h1' more' h' dens occ m hd p (permute σ p) hp ?_ ?_ hocc
    (permuteGrid σ) (sum_permuteGrid σ) (fun _ i => permute σ i) ?_ ?_ (fun c hc i => ?_) x x'
  · rw [hq]
    exact (region_permute σ g.r k _).2 hp
  · intro s
    rw [hq]
    exact hdens s _
  · intro c i hi
    rw [hq]
    exact (inCell_permute σ g.r c i _).2 hi
  · intro c i
    rw [hq]
    exact hat_permute σ g.r c i _
  · obtain ⟨e1, -, e2⟩ := C106_weighted_contents σ k g hr ray ray' exp exp ops ops' hops s0 h0 s0' h0' c hc i
    exact occ_mapHits_of_counts (weightedFlavour K d) (fun x => (permute σ x.1, x.2)) k (permuteKind σ k) g (permuteGeo σ g) ray ray' exp exp ops ops' s0 h0 s0' h0' c _ hc (permuteGrid_lt σ c) i _ e1 e2

/-- **C110** (samples of occupancy maps). If density and occupancy do not distinguish the directions of the axes, then after neighbourhood allocation, possibly followed by lookups and further allocations, both maps have the same samples at
points that are mirror images of each other and lie on no borders. -/
theorem C110_occupancy_samples (Mi : Fin d → Bool) (k : Kind d) (g : Geo K d) (hr : 0 < g.r) (ray ray' : Pt K d → Pt K d → List (Idx d)) (exp : Occ Nat (Pt K d) → Bool) (hexp : exp default = false)
    (ops ops' : List (OccMapOp K d Nat (Pt K d))) (hops : List.Forall₂ (MirroredOccOp Mi g) ops ops')
    (s0 s1 st : St k.backend (Occ Nat (Pt K d))) (h0 : occRun (occFlavour K d) g k.dyn ray exp ops (k.init _) = some s0) (h1 : allocPartials k.dyn exp s0 = some s1) (more : List (CoreOp d))
    (h : coreRun k.dyn exp more s1 = some st)
    (s0' s1' st' : St (mirrorKind Mi k).backend (Occ Nat (Pt K d))) (h0' : occRun (occFlavour K d) (mirrorGeo Mi g) (mirrorKind Mi k).dyn ray' exp ops' ((mirrorKind Mi k).init _) = some s0') (h1' : allocPartials (mirrorKind Mi k).dyn exp s0' = some s1')
    (more' : List (CoreOp d)) (h' : coreRun (mirrorKind Mi k).dyn exp more' s1' = some st')
    (dens : Multiset (Pt K d) → Pt K d → K) (occ : M → Occ Nat (Pt K d) → K) (m : M) (hd : ∀ (o : Occ Nat (Pt K d)) s q, o.data = some s → exp o = false → dens s q = 0)
    (hdens : ∀ s q, dens (s.map (mirror Mi)) (mirror Mi q) = dens s q) (hocc : ∀ o, occ m (mapHits (mirror Mi) o) = occ m o)
    (p : Pt K d) (hp : Region g.r k (g.toMap p)) (hoff : OffBorders g.r (g.toMap p)) (x x' : K) :
    (occSampleNNAt g k.dyn dens occ p (some m) st = .ok (some x) → occSampleNNAt (mirrorGeo Mi g) (mirrorKind Mi k).dyn dens occ (mirror Mi p) (some m) st' = .ok (some x') → x' = x) ∧
    (occSampleBilinearAt g k.dyn dens occ p (some m) st = .ok (some x) → occSampleBilinearAt (mirrorGeo Mi g) (mirrorKind Mi k).dyn dens occ (mirror Mi p) (some m) st' = .ok (some x') → x' = x) := by
  have hq : (mirrorGeo Mi g).toMap (mirror Mi p) = mirror Mi (g.toMap p) := mirrorMap_apply Mi g.toMap p
  refine corresponding_field (occFlavour K d) (mirror Mi) k (mirrorKind Mi k) g (mirrorGeo Mi g) hr hr ray ray' exp hexp ops ops' s0 s1 st h0 h1 more h s0' s1' st' h0' h1' more' h' dens occ m hd p (mirror Mi p) hp ?_ ?_ hocc
    id (fun _ => rfl) (fun c i => mirrorCell Mi c i) ?_ ?_ (fun c hc i => ?_) x x'
  · rw [hq]
    exact (region_mirror Mi g.r k _ hoff).2 hp
  · intro s
    rw [hq]
    exact hdens s _
  · intro c i hi
    rw [hq]
    exact (inCell_mirror Mi g.r c i _ hoff).2 hi
  · intro c i
    rw [hq]
    exact hat_mirror Mi g.r c i _
  · obtain ⟨e1, -, e2⟩ := C110_occupancy_contents Mi k g hr ray ray' exp exp ops ops' hops s0 h0 s0' h0' c hc i
    exact occ_mapHits_of_counts (occFlavour K d) (mirror Mi) k (mirrorKind Mi k) g (mirrorGeo Mi g) ray ray' exp exp ops ops' s0 h0 s0' h0' c _ hc hc i _ e1 e2

/-- **C110** (samples of weighted occupancy maps). If density and occupancy do not distinguish the directions of the axes, then after neighbourhood allocation, possibly followed by lookups and further allocations, both maps have the same samples at
points that are mirror images of each other and lie on no borders. -/
theorem C110_weighted_samples (Mi : Fin d → Bool) (k : Kind d) (g : Geo K d) (hr : 0 < g.r) (ray ray' : Pt K d → Pt K d → List (Idx d)) (exp : Occ K (Pt K d × K) → Bool) (hexp : exp default = false)
    (ops ops' : List (OccMapOp K d K (Pt K d × K))) (hops : List.Forall₂ (MirroredOccOp Mi g) ops ops')
    (s0 s1 st : St k.backend (Occ K (Pt K d × K))) (h0 : occRun (weightedFlavour K d) g k.dyn ray exp ops (k.init _) = some s0) (h1 : allocPartials k.dyn exp s0 = some s1) (more : List (CoreOp d))
    (h : coreRun k.dyn exp more s1 = some st)
    (s0' s1' st' : St (mirrorKind Mi k).backend (Occ K (Pt K d × K))) (h0' : occRun (weightedFlavour K d) (mirrorGeo Mi g) (mirrorKind Mi k).dyn ray' exp ops' ((mirrorKind Mi k).init _) = some s0') (h1' : allocPartials (mirrorKind Mi k).dyn exp s0' = some s1')
    (more' : List (CoreOp d)) (h' : coreRun (mirrorKind Mi k).dyn exp more' s1' = some st')
    (dens : Multiset (Pt K d × K) → Pt K d → K) (occ : M → Occ K (Pt K d × K) → K) (m : M) (hd : ∀ (o : Occ K (Pt K d × K)) s q, o.data = some s → exp o = false → dens s q = 0)
    (hdens : ∀ s q, dens (s.map (fun x => (mirror Mi x.1, x.2))) (mirror Mi q) = dens s q) (hocc : ∀ o, occ m (mapHits (fun x => (mirror Mi x.1, x.2)) o) = occ m o)
    (p : Pt K d) (hp : Region g.r k (g.toMap p)) (hoff : OffBorders g.r (g.toMap p)) (x x' : K) :
    (occSampleNNAt g k.dyn dens occ p (some m) st = .ok (some x) → occSampleNNAt (mirrorGeo Mi g) (mirrorKind Mi k).dyn dens occ (mirror Mi p) (some m) st' = .ok (some x') → x' = x) ∧
    (occSampleBilinearAt g k.dyn dens occ p (some m) st = .ok (some x) → occSampleBilinearAt (mirrorGeo Mi g) (mirrorKind Mi k).dyn dens occ (mirror Mi p) (some m) st' = .ok (some x') → x' = x) := by
  have hq : (mirrorGeo Mi g).toMap (mirror Mi p) = mirror Mi (g.toMap p) := mirrorMap_apply Mi g.toMap p
  refine corresponding_field (weightedFlavour K d) (fun x => (mirror Mi x.1, x.2)) k (mirrorKind Mi k) g (mirrorGeo Mi g) hr hr ray ray' exp hexp ops ops' s0 s1 st h0 h1 more h s0' s1' st' h0' h1' more' h' dens occ m hd p (mirror Mi p) hp ?_ ?_ hocc
    id (fun _ => rfl) (fun c i => mirrorCell Mi c i) ?_ ?_ (fun c hc i => ?_) x x'
  · rw [hq]
    exact (region_mirror Mi g.r k _ hoff).2 hp
  · intro s
    rw [hq]
    exact hdens s _
  · intro c i hi
    rw [hq]
    exact (inCell_mirror Mi g.r c i _ hoff).2 hi
  · intro c i
    rw [hq]
    exact hat_mirror Mi g.r c i _
  · obtain ⟨e1, -, e2⟩ := C110_weighted_contents Mi k g hr ray ray' exp exp ops ops' hops s0 h0 s0' h0' c hc i
    exact occ_mapHits_of_counts (weightedFlavour K d) (fun x => (mirror Mi x.1, x.2)) k (mirrorKind Mi k) g (mirrorGeo Mi g) ray ray' exp exp ops ops' s0 h0 s0' h0' c _ hc hc i _ e1 e2

/-- **C110** (rotations by right angles, samples of occupancy maps). The same in turned coordinates. -/
theorem C110_turn_occupancy_samples (σ : Equiv.Perm (Fin d)) (Mi : Fin d → Bool) (k : Kind d) (g : Geo K d) (hr : 0 < g.r) (ray ray' : Pt K d → Pt K d → List (Idx d)) (exp : Occ Nat (Pt K d) → Bool) (hexp : exp default = false)
    (ops ops' : List (OccMapOp K d Nat (Pt K d))) (hops : List.Forall₂ (TurnedOccOp σ Mi g) ops ops')
    (s0 s1 st : St k.backend (Occ Nat (Pt K d))) (h0 : occRun (occFlavour K d) g k.dyn ray exp ops (k.init _) = some s0) (h1 : allocPartials k.dyn exp s0 = some s1) (more : List (CoreOp d))
    (h : coreRun k.dyn exp more s1 = some st)
    (s0' s1' st' : St (turnKind σ Mi k).backend (Occ Nat (Pt K d))) (h0' : occRun (occFlavour K d) (turnGeo σ Mi g) (turnKind σ Mi k).dyn ray' exp ops' ((turnKind σ Mi k).init _) = some s0') (h1' : allocPartials (turnKind σ Mi k).dyn exp s0' = some s1')
    (more' : List (CoreOp d)) (h' : coreRun (turnKind σ Mi k).dyn exp more' s1' = some st')
    (dens : Multiset (Pt K d) → Pt K d → K) (occ : M → Occ Nat (Pt K d) → K) (m : M) (hd : ∀ (o : Occ Nat (Pt K d)) s q, o.data = some s → exp o = false → dens s q = 0)
    (hdens : ∀ s q, dens (s.map (rightTurn σ Mi)) (rightTurn σ Mi q) = dens s q) (hocc : ∀ o, occ m (mapHits (rightTurn σ Mi) o) = occ m o)
    (p : Pt K d) (hp : Region g.r k (g.toMap p)) (hoff : OffBorders g.r (g.toMap p)) (x x' : K) :
    (occSampleNNAt g k.dyn dens occ p (some m) st = .ok (some x) → occSampleNNAt (turnGeo σ Mi g) (turnKind σ Mi k).dyn dens occ (rightTurn σ Mi p) (some m) st' = .ok (some x') → x' = x) ∧
    (occSampleBilinearAt g k.dyn dens occ p (some m) st = .ok (some x) → occSampleBilinearAt (turnGeo σ Mi g) (turnKind σ Mi k).dyn dens occ (rightTurn σ Mi p) (some m) st' = .ok (some x') → x' = x) := by
  have hq : (turnGeo σ Mi g).toMap (rightTurn σ Mi p) = rightTurn σ Mi (g.toMap p) := by
    show mirrorMap Mi (permuteMap σ g.toMap) (mirror Mi (permute σ p)) = _
    rw [mirrorMap_apply, permuteMap_apply]
    rfl
  refine corresponding_field (occFlavour K d) (rightTurn σ Mi) k (turnKind σ Mi k) g (turnGeo σ Mi g) hr hr ray ray' exp hexp ops ops' s0 s1 st h0 h1 more h s0' s1' st' h0' h1' more' h' dens occ m hd p (rightTurn σ Mi p) hp ?_ ?_ hocc
    (permuteGrid σ) (sum_permuteGrid σ) (fun c i => turnCell σ Mi c i) ?_ ?_ (fun c hc i => ?_) x x'
  · rw [hq]
    exact (region_mirror Mi g.r _ _ (offBorders_permute hoff σ)).2 ((region_permute σ g.r k _).2 hp)
  · intro s
    rw [hq]
    exact hdens s _
  · intro c i hi
    rw [hq]
    exact (inCell_mirror Mi g.r _ _ _ (offBorders_permute hoff σ)).2 ((inCell_permute σ g.r c i _).2 hi)
  · intro c i
    rw [hq]
    exact (hat_mirror Mi g.r _ _ _).trans (hat_permute σ g.r c i _)
  · obtain ⟨e1, -, e2⟩ := C110_turn_occupancy σ Mi k g hr ray ray' exp exp ops ops' hops s0 h0 s0' h0' c hc i
    exact occ_mapHits_of_counts (occFlavour K d) (rightTurn σ Mi) k (turnKind σ Mi k) g (turnGeo σ Mi g) ray ray' exp exp ops ops' s0 h0 s0' h0' c _ hc (permuteGrid_lt σ c) i _ e1 e2

/-- **C110** (rotations by right angles, samples of weighted occupancy maps). The same in turned coordinates. -/
theorem C110_turn_weighted_samples (σ : Equiv.Perm (Fin d)) (Mi : Fin d → Bool) (k : Kind d) (g : Geo K d) (hr : 0 < g.r) (ray ray' : Pt K d → Pt K d → List (Idx d)) (exp : Occ K (Pt K d × K) → Bool) (hexp : exp default = false)
    (ops ops' : List (OccMapOp K d K (Pt K d × K))) (hops : List.Forall₂ (TurnedOccOp σ Mi g) ops ops')
    (s0 s1 st : St k.backend (Occ K (Pt K d × K))) (h0 : occRun (weightedFlavour K d) g k.dyn ray exp ops (k.init _) = some s0) (h1 : allocPartials k.dyn exp s0 = some s1) (more : List (CoreOp d))
    (h : coreRun k.dyn exp more s1 = some st)
    (s0' s1' st' : St (turnKind σ Mi k).backend (Occ K (Pt K d × K))) (h0' : occRun (weightedFlavour K d) (turnGeo σ Mi g) (turnKind σ Mi k).dyn ray' exp ops' ((turnKind σ Mi k).init _) = some s0') (h1' : allocPartials (turnKind σ Mi k).dyn exp s0' = some s1')
    (more' : List (CoreOp d)) (h' : coreRun (turnKind σ Mi k).dyn exp more' s1' = some st')
    (dens : Multiset (Pt K d × K) → Pt K d → K) (occ : M → Occ K (Pt K d × K) → K) (m : M) (hd : ∀ (o : Occ K (Pt K d × K)) s q, o.data = some s → exp o = false → dens s q = 0)
    (hdens : ∀ s q, dens (s.map (fun x => (rightTurn σ Mi x.1, x.2))) (rightTurn σ Mi q) = dens s q) (hocc : ∀ o, occ m (mapHits (fun x => (rightTurn σ Mi x.1, x.2)) o) = occ m o)
    (p : Pt K d) (hp : Region g.r k (g.toMap p)) (hoff : OffBorders g.r (g.toMap p)) (x x' : K) :
    (occSampleNNAt g k.dyn dens occ p (some m) st = .ok (some x) → occSampleNNAt (turnGeo σ Mi g) (turnKind σ Mi k).dyn dens occ (rightTurn σ Mi p) (some m) st' = .ok (some x') → x' = x) ∧
    (occSampleBilinearAt g k.dyn dens occ p (some m) st = .ok (some x) → occSampleBilinearAt (turnGeo σ Mi g) (turnKind σ Mi k).dyn dens occ (rightTurn σ Mi p) (some m) st' = .ok (some x') → x' = x) := by
  have hq : (turnGeo σ Mi g).toMap (rightTurn σ Mi p) = rightTurn σ Mi (g.toMap p) := by
    show mirrorMap Mi (permuteMap σ g.toMap) (mirror Mi (permute σ p)) = _
    rw [mirrorMap_apply, permuteMap_apply]
    rfl
  refine corresponding_field (weightedFlavour K d) (fun x => (rightTurn σ Mi x.1, x.2)) k (turnKind σ Mi k) g (turnGeo σ Mi g) hr hr ray ray' exp hexp ops ops' s0 s1 st h0 h1 more h s0' s1' st' h0' h1' more' h' dens occ m hd p (rightTurn σ Mi p) hp ?_ ?_ hocc
    (permuteGrid σ) (sum_permuteGrid σ) (fun c i => turnCell σ Mi c i) ?_ ?_ (fun c hc i => ?_) x x'
  · rw [hq]
    exact (region_mirror Mi g.r _ _ (offBorders_permute hoff σ)).2 ((region_permute σ g.r k _).2 hp)
  · intro s
    rw [hq]
    exact hdens s _
  · intro c i hi
    rw [hq]
    exact (inCell_mirror Mi g.r _ _ _ (offBorders_permute hoff σ)).2 ((inCell_permute σ g.r c i _).2 hi)
  · intro c i
    rw [hq]
    exact (hat_mirror Mi g.r _ _ _).trans (hat_permute σ g.r c i _)
  · obtain ⟨e1, -, e2⟩ := C110_turn_weighted σ Mi k g hr ray ray' exp exp ops ops' hops s0 h0 s0' h0' c hc i
    exact occ_mapHits_of_counts (weightedFlavour K d) (fun x => (rightTurn σ Mi x.1, x.2)) k (turnKind σ Mi k) g (turnGeo σ Mi g) ray ray' exp exp ops ops' s0 h0 s0' h0' c _ hc (permuteGrid_lt σ c) i _ e1 e2

end

/-- The occupancies the library computes depend on the numbers of hits and misses only, as the theorems on samples require. -/
theorem C106_occupancy_of_counts {E : Type} (F : E → E) (m : Ivm) (o : Occ Nat E) : Occ.occupancy m (mapHits F o) = Occ.occupancy m o := by
  unfold Occ.occupancy mapHits
  cases o.data with
  | none => rfl
  | some s => simp only [Option.map_some, Multiset.card_map]

/-- … and on the weights of hits and misses in weighted maps. -/
theorem C106_weighted_of_counts {P : Type} (F : P → P) (m : Ivm) (o : Occ ℝ (P × ℝ)) : Occ.occupancyW m (mapHits (fun x => (F x.1, x.2)) o) = Occ.occupancyW m o := by
  unfold Occ.occupancyW mapHits
  cases o.data with
  | none => rfl
  | some s => simp [Option.map_some, Multiset.map_map, Function.comp_def]

/-! ### Non-vacuity -/

def axesOccExp : Occ Nat (Pt ℚ 2) → Bool := fun o => decide (0 < o.samples.card)
/-- one scan with misses (`offScan`), its mirror image and the scan turned by 90°, then neighbourhood allocation -/
def axesOE (k : Kind 2) (g : Geo ℚ 2) (s : Scan ℚ 2 Nat) : Option (St k.backend (Occ Nat (Pt ℚ 2)) × St k.backend (Occ Nat (Pt ℚ 2))) :=
  (occRun (occFlavour ℚ 2) g k.dyn (fun _ _ => []) axesOccExp [.insert s] (k.init _)).bind fun s0 => (allocPartials k.dyn axesOccExp s0).map fun s1 => (s0, s1)
theorem axesOE_runs : (axesOE axesKind axesGeo (offScan Nat)).isSome = true := by decide +kernel
theorem axesOE_mirror_runs : (axesOE (mirrorKind mirrorX axesKind) (mirrorGeo mirrorX axesGeo) (offScan' Nat)).isSome = true := by decide +kernel
theorem axesOE_turn_runs : (axesOE (turnKind axesSwap mirrorX axesKind) (turnGeo axesSwap mirrorX axesGeo) (turnScan Nat)).isSome = true := by decide +kernel
/-- an occupancy that depends on the numbers of hits and misses -/
def axesOcc (_ : Unit) (o : Occ Nat (Pt ℚ 2)) : ℚ := o.numOccupied / (o.numOccupied + o.numFree)

theorem axesOE_spec {k : Kind 2} {g : Geo ℚ 2} {s : Scan ℚ 2 Nat} (h : (axesOE k g s).isSome = true) :
    occRun (occFlavour ℚ 2) g k.dyn (fun _ _ => []) axesOccExp [.insert s] (k.init _) = some ((axesOE k g s).get h).1 ∧ allocPartials k.dyn axesOccExp ((axesOE k g s).get h).1 = some ((axesOE k g s).get h).2 := by
  obtain ⟨r, hr⟩ := Option.isSome_iff_exists.1 h
  have e : (axesOE k g s).get h = r := Option.get_of_eq_some h hr
  rw [e]
  unfold axesOE at hr
  obtain ⟨s0, h0, h1⟩ := Option.bind_eq_some_iff.1 hr
  obtain ⟨s1, h2, rfl⟩ := Option.map_eq_some_iff.1 h1
  exact ⟨h0, h2⟩

/-- the histories correspond to each other, and the samples of the three maps are equal and positive -/
example : List.Forall₂ (MirroredOccOp mirrorX axesGeo) [(.insert (offScan Nat) : OccMapOp ℚ 2 Nat (Pt ℚ 2))] [.insert (offScan' Nat)] ∧
    List.Forall₂ (TurnedOccOp axesSwap mirrorX axesGeo) [(.insert (offScan Nat) : OccMapOp ℚ 2 Nat (Pt ℚ 2))] [.insert (turnScan Nat)] ∧
    axesOccExp default = false ∧ (∀ (o : Occ Nat (Pt ℚ 2)) s q, o.data = some s → axesOccExp o = false → axesDens s q = 0) ∧
    (∀ (F : Pt ℚ 2 → Pt ℚ 2) s q, axesDens (s.map F) (F q) = axesDens s q) ∧ (∀ F o, axesOcc () (mapHits F o) = axesOcc () o) ∧
    occSampleNNAt axesGeo axesKind.dyn axesDens axesOcc ![1 / 5, -1 / 5] (some ()) ((axesOE axesKind axesGeo (offScan Nat)).get axesOE_runs).2 = .ok (some (2 / 3)) ∧
    occSampleNNAt (mirrorGeo mirrorX axesGeo) (mirrorKind mirrorX axesKind).dyn axesDens axesOcc (mirror mirrorX ![1 / 5, -1 / 5]) (some ()) ((axesOE _ _ (offScan' Nat)).get axesOE_mirror_runs).2 = .ok (some (2 / 3)) ∧
    occSampleNNAt (turnGeo axesSwap mirrorX axesGeo) (turnKind axesSwap mirrorX axesKind).dyn axesDens axesOcc (rightTurn axesSwap mirrorX ![1 / 5, -1 / 5]) (some ())
      ((axesOE _ _ (turnScan Nat)).get axesOE_turn_runs).2 = .ok (some (2 / 3)) := by
  have h1 : sampleWith axesKind.dyn (fun _ => divCount ℚ 2) (occValue axesDens (axesOcc ()) ((axesGeo).toMap ![1 / 5, -1 / 5])) (toBundleIndex (axesGeo).r ((axesGeo).toMap ![1 / 5, -1 / 5])) ((axesOE axesKind axesGeo (offScan Nat)).get axesOE_runs).2 = some (2 / 3) := by decide +kernel
  have h2 : sampleWith (mirrorKind mirrorX axesKind).dyn (fun _ => divCount ℚ 2) (occValue axesDens (axesOcc ()) ((mirrorGeo mirrorX axesGeo).toMap (mirror mirrorX ![1 / 5, -1 / 5]))) (toBundleIndex (mirrorGeo mirrorX axesGeo).r ((mirrorGeo mirrorX axesGeo).toMap (mirror mirrorX ![1 / 5, -1 / 5]))) ((axesOE _ _ (offScan' Nat)).get axesOE_mirror_runs).2 = some (2 / 3) := by decide +kernel
  have h3 : sampleWith (turnKind axesSwap mirrorX axesKind).dyn (fun _ => divCount ℚ 2) (occValue axesDens (axesOcc ()) ((turnGeo axesSwap mirrorX axesGeo).toMap (rightTurn axesSwap mirrorX ![1 / 5, -1 / 5]))) (toBundleIndex (turnGeo axesSwap mirrorX axesGeo).r ((turnGeo axesSwap mirrorX axesGeo).toMap (rightTurn axesSwap mirrorX ![1 / 5, -1 / 5]))) ((axesOE _ _ (turnScan Nat)).get axesOE_turn_runs).2 = some (2 / 3) := by decide +kernel
  refine ⟨.cons (.insert _ _ (offScan_mirrored Nat)) .nil, .cons (.insert _ _ (offScan_turned Nat)) .nil, rfl, fun o s q hs ho => ?_, fun F s q => ?_, fun F o => ?_, congrArg Except.ok h1, congrArg Except.ok h2, congrArg Except.ok h3⟩
  · unfold axesOccExp Occ.samples at ho
    rw [hs] at ho
    have : s.card = 0 := by simpa using ho
    unfold axesDens
    rw [this]
    rfl
  · unfold axesDens
    rw [Multiset.card_map]
  · unfold axesOcc mapHits
    rw [Occ.numOccupied_eq, Occ.numOccupied_eq]
    unfold Occ.samples Occ.numFree
    cases o.data with
    | none => rfl
    | some s => simp only [Option.map_some, Multiset.card_map]

end Ndt
