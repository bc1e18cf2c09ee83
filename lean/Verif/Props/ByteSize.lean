import Verif.Proofs.ByteSize
import Verif.Props.Gridmap

/-!
C89: the memory `getByteSize()` reports for a dynamic map is a function of the mapped area: which bundles are allocated.
-/

namespace Ndt
open Octree St

section
variable {d : Nat} {D : Type} [Inhabited D] {g : Nat → Nat} {g' : Nat} {exp : D → Bool}

/-- the distributions of grid `c` are exactly the cells of the allocated bundles -/
theorem mem_storage_iff {st : St (octreeBackend d) D} (hR : MapReachable (.dynamic g g') exp st) (c : Nat) (hc : c < 2 ^ d) (i : Idx d) :
    i ∈ st.bundleIndices.toFinset.image (generateIndex · c) ↔ (st.content c i).isSome = true := by
  have hI : RInv (octreeLawful d) true st := hR.spec.1
  rw [Finset.mem_image]
  constructor
  · rintro ⟨bi, hb, rfl⟩
    refine (hI.ainv.used c _).2 ⟨hc, bi, ?_, rfl⟩
    rw [mem_allocated_iff, ← mem_bundleIndices (octreeLawful d) st hI.inv]
    exact List.mem_toFinset.1 hb
  · intro h
    obtain ⟨_, bi, hb, e⟩ := (hI.ainv.used c i).1 h
    refine ⟨bi, List.mem_toFinset.2 ?_, e⟩
    rw [mem_bundleIndices (octreeLawful d) st hI.inv, ← mem_allocated_iff]
    exact hb

/-- **C89** (exact size). Whatever the history of a dynamic map: `getByteSize()` is the size of the map object, plus the size of an octree holding exactly the allocated bundles, plus, for each of
the `2^d` grids, the size of an octree holding exactly the cells of that grid that the allocated bundles lie in, each with the size of its distribution. -/
theorem C89_byte_size (st : St (octreeBackend d) D) (hR : MapReachable (.dynamic g g') exp st) (sz : MapSizes D) (sizeofBundle : Nat)
    (hB : ∀ b, sz.bundle.data b = sizeofBundle) :
    let S := st.bundleIndices.toFinset
    st.getByteSize sz = sz.this + Spec.treeBytes sz.bundle.this sz.bundle.node sz.bundle.ptr sz.bundle.index (fun _ => sizeofBundle) S +
      ∑ c ∈ Finset.range (2 ^ d), Spec.treeBytes sz.dist.this sz.dist.node sz.dist.ptr sz.dist.index
        (fun i => sz.dist.data ((st.content c i).getD default)) (S.image (generateIndex · c)) := by
  intro S
  have hI : RInv (octreeLawful d) true st := hR.spec.1
  have h1 : Tree.byteSize sz.bundle st.bundles =
      Spec.treeBytes sz.bundle.this sz.bundle.node sz.bundle.ptr sz.bundle.index (fun _ => sizeofBundle) S := by
    refine byteSize_treeBytes sz.bundle _ hI.inv.bstore ((octreeLawful d).nodup_traverse _ hI.inv.bstore) S ?_ _ fun e _ => (hB e.2).symm
    intro i
    show i ∈ st.bundleIndices.toFinset ↔ _
    rw [List.mem_toFinset]
    show i ∈ (st.bundles.traverse).map Prod.fst ↔ _
    simp
  have h2 : ∀ c ∈ Finset.range (2 ^ d), Tree.byteSize { sz.dist with data := fun a => sz.dist.data (st.heap a) } (st.storage c) =
      Spec.treeBytes sz.dist.this sz.dist.node sz.dist.ptr sz.dist.index (fun i => sz.dist.data ((st.content c i).getD default)) (S.image (generateIndex · c)) := by
    intro c hc
    refine byteSize_treeBytes { sz.dist with data := fun a => sz.dist.data (st.heap a) } _ (hI.inv.store c)
      ((octreeLawful d).nodup_traverse _ (hI.inv.store c)) _ ?_ _ ?_
    · intro i
      rw [mem_storage_iff hR c (Finset.mem_range.1 hc)]
      show ((st.dist c i).map st.heap).isSome = true ↔ _
      rw [Option.isSome_map, Option.isSome_iff_exists]
      exact exists_congr fun a => ((octreeLawful d).mem_traverse _ (hI.inv.store c) i a).symm
    · rintro ⟨i, a⟩ he
      have : st.dist c i = some a := ((octreeLawful d).mem_traverse _ (hI.inv.store c) i a).1 he
      show sz.dist.data (((st.dist c i).map st.heap).getD default) = _
      rw [this]; rfl
  have h3 : ∀ (l : List Nat) (f : Nat → Nat) (a : Nat), l.foldl (fun s c => s + f c) a = a + (l.map f).sum := by
    intro l f
    induction l with
    | nil => intro a; simp
    | cons x l ih => intro a; rw [List.foldl_cons, ih, List.map_cons, List.sum_cons]; omega
  unfold St.getByteSize
  simp only
  rw [h3, h1, ← List.sum_toFinset _ List.nodup_range, List.toFinset_range, Finset.sum_congr rfl h2, Nat.add_assoc]

/-- **C89** (NDT maps). Distributions of an NDT map have a fixed size, so two dynamic maps with the same allocated bundles report the same size, whatever their histories and contents. -/
theorem C89_same_bundles (st st' : St (octreeBackend d) D) {exp' : D → Bool} {f : Nat → Nat} {f' : Nat} (hR : MapReachable (.dynamic g g') exp st)
    (hR' : MapReachable (.dynamic f f') exp' st') (h : ∀ bi, bi ∈ st.bundleIndices ↔ bi ∈ st'.bundleIndices) (sz : MapSizes D) (sizeofBundle sizeofDist : Nat)
    (hB : ∀ b, sz.bundle.data b = sizeofBundle) (hD : sz.dist.data = distributionByteSize sizeofDist) :
    st.getByteSize sz = st'.getByteSize sz := by
  have e : st.bundleIndices.toFinset = st'.bundleIndices.toFinset := by ext; simp [h]
  rw [C89_byte_size st hR sz _ hB, C89_byte_size st' hR' sz _ hB, e]
  simp only [hD, distributionByteSize]

/-- **C89** (growth). The reported size never shrinks when bundles are added and no distribution gets smaller. -/
theorem C89_monotone (st st' : St (octreeBackend d) D) {exp' : D → Bool} {f : Nat → Nat} {f' : Nat} (hR : MapReachable (.dynamic g g') exp st)
    (hR' : MapReachable (.dynamic f f') exp' st') (h : ∀ bi ∈ st.bundleIndices, bi ∈ st'.bundleIndices) (sz : MapSizes D) (sizeofBundle : Nat)
    (hB : ∀ b, sz.bundle.data b = sizeofBundle)
    (hD : ∀ c i x, c < 2 ^ d → st.content c i = some x → sz.dist.data x ≤ sz.dist.data ((st'.content c i).getD default)) :
    st.getByteSize sz ≤ st'.getByteSize sz := by
  have e : st.bundleIndices.toFinset ⊆ st'.bundleIndices.toFinset := fun i hi => List.mem_toFinset.2 (h i (List.mem_toFinset.1 hi))
  rw [C89_byte_size st hR sz _ hB, C89_byte_size st' hR' sz _ hB]
  refine Nat.add_le_add (Nat.add_le_add_left (Spec.treeBytes_mono _ _ _ _ _ _ _ _ e fun _ _ => le_refl _) _) (Finset.sum_le_sum fun c hc => ?_)
  refine Spec.treeBytes_mono _ _ _ _ _ _ _ _ (Finset.image_subset_image e) fun i hi => ?_
  obtain ⟨x, hx⟩ := Option.isSome_iff_exists.1 ((mem_storage_iff hR c (Finset.mem_range.1 hc) i).1 hi)
  rw [hx]
  exact hD c i x (Finset.mem_range.1 hc) hx

/-- **C89** (linear bound). If no distribution takes more than `m` bytes, the reported size is at most a constant plus a constant times the number of allocated bundles. -/
theorem C89_linear (st : St (octreeBackend d) D) (hR : MapReachable (.dynamic g g') exp st) (sz : MapSizes D) (sizeofBundle m : Nat)
    (hB : ∀ b, sz.bundle.data b = sizeofBundle) (hD : ∀ x, sz.dist.data x ≤ m) :
    st.getByteSize sz ≤
      sz.this + (sz.bundle.this + (sz.bundle.node + 2 ^ d * sz.bundle.ptr)) + 2 ^ d * (sz.dist.this + (sz.dist.node + 2 ^ d * sz.dist.ptr)) +
      st.bundleIndices.length * ((16 * sz.bundle.node + 15 * (2 ^ d * sz.bundle.ptr) + (sz.bundle.index + sizeofBundle)) +
        2 ^ d * (16 * sz.dist.node + 15 * (2 ^ d * sz.dist.ptr) + (sz.dist.index + m))) := by
  have hI : RInv (octreeLawful d) true st := hR.spec.1
  rw [C89_byte_size st hR sz _ hB]
  have hcard : st.bundleIndices.toFinset.card = st.bundleIndices.length := List.toFinset_card_of_nodup (nodup_bundleIndices _ st hI.inv)
  have hrange : ∀ i ∈ st.bundleIndices.toFinset, Spec.InRange i := by
    intro i hi
    obtain ⟨e, he, hei⟩ := List.mem_map.1 (List.mem_toFinset.1 hi)
    exact hei ▸ hI.inv.bstore.2 e he
  have h1 := Spec.treeBytes_le sz.bundle.this sz.bundle.node sz.bundle.ptr sz.bundle.index sizeofBundle (fun _ => sizeofBundle) _ hrange (fun _ _ => le_refl _)
  have h2 : ∀ c ∈ Finset.range (2 ^ d), Spec.treeBytes sz.dist.this sz.dist.node sz.dist.ptr sz.dist.index
      (fun i => sz.dist.data ((st.content c i).getD default)) (st.bundleIndices.toFinset.image (generateIndex · c)) ≤
      sz.dist.this + (sz.dist.node + 2 ^ d * sz.dist.ptr) + st.bundleIndices.length * (16 * sz.dist.node + 15 * (2 ^ d * sz.dist.ptr) + (sz.dist.index + m)) := by
    intro c hc
    refine (Spec.treeBytes_le sz.dist.this sz.dist.node sz.dist.ptr sz.dist.index m _ _ ?_ fun _ _ => hD _).trans
      (Nat.add_le_add_left (Nat.mul_le_mul_right _ (hcard ▸ Finset.card_image_le)) _)
    intro i hi
    have := (mem_storage_iff hR c (Finset.mem_range.1 hc) i).1 hi
    rw [St.content, Option.isSome_map, Option.isSome_iff_exists] at this
    obtain ⟨a, ha⟩ := this
    exact (hI.inv.store c).2 _ (((octreeLawful d).mem_traverse _ (hI.inv.store c) i a).2 ha)
  have h3 := Finset.sum_le_sum h2
  rw [Finset.sum_const, Finset.card_range, smul_eq_mul] at h3
  rw [hcard] at h1
  refine (Nat.add_le_add (Nat.add_le_add_left h1 _) h3).trans (le_of_eq ?_)
  ring

end

section
variable {d : Nat} {W E : Type} [Inhabited (Occ W E)] {g : Nat → Nat} {g' : Nat} {exp : Occ W E → Bool}

/-- **C89** (occupancy maps). An occupancy map takes the size of an NDT map with the same bundles plus one inner distribution for every stored distribution that has recorded a hit. -/
theorem C89_occupancy (st : St (octreeBackend d) (Occ W E)) (hR : MapReachable (.dynamic g g') exp st) (sz : MapSizes (Occ W E)) (sizeofBundle sizeofThis sizeofDist : Nat)
    (hB : ∀ b, sz.bundle.data b = sizeofBundle) (hD : sz.dist.data = Occ.byteSize sizeofThis sizeofDist) :
    st.getByteSize sz = st.getByteSize { sz with dist := { sz.dist with data := fun _ => sizeofThis } } +
      sizeofDist * ∑ c ∈ Finset.range (2 ^ d), ((st.bundleIndices.toFinset.image (generateIndex · c)).filter
        fun i => ∃ o, st.content c i = some o ∧ o.data ≠ none).card := by
  classical
  rw [C89_byte_size st hR sz _ hB, C89_byte_size st hR { sz with dist := { sz.dist with data := fun _ => sizeofThis } } _ hB, Finset.mul_sum, Nat.add_assoc _ (Finset.sum _ _),
    ← Finset.sum_add_distrib]
  congr 1
  refine Finset.sum_congr rfl fun c hc => ?_
  unfold Spec.treeBytes
  rw [Nat.add_assoc _ (Finset.sum _ _)]
  congr 1
  rw [Finset.card_filter, Finset.mul_sum, ← Finset.sum_add_distrib]
  refine Finset.sum_congr rfl fun i hi => ?_
  obtain ⟨o, ho⟩ := Option.isSome_iff_exists.1 ((mem_storage_iff hR c (Finset.mem_range.1 hc) i).1 hi)
  simp only [ho, hD, Occ.byteSize, Option.getD_some, Option.some.injEq]
  cases hd : o.data <;> simp [hd, Nat.add_assoc]

end

section
variable {K : Type} [Field K] [LinearOrder K] [IsStrictOrderedRing K] [FloorRing K] {d : Nat}

/-- **C89** (what insertions allocate). An insertion allocates exactly the bundles its accepted points fall into, for dynamic and static maps in any reachable state. -/
theorem C89_insert_allocates (k : Kind d) (g : Geo K d) (hr : 0 < g.r) (exp : Multiset (Pt K d) → Bool) (st st' : St k.backend (Multiset (Pt K d)))
    (hst : Reachable k g exp st) (pose : Pt K d → Pt K d) (cloud : List (Pt K d)) (h : gridInsert g k.dyn pose cloud st = some st') (bi : Idx d) :
    bi ∈ st'.bundleIndices ↔ bi ∈ st.bundleIndices ∨ ∃ p ∈ Spec.acceptedPoints g k pose cloud, Spec.InBundle g.r bi p := by
  have hI := hst.rinv
  have hv : st.abs.valid k.dyn = (k.init (Multiset (Pt K d))).abs.valid k.dyn := funext hst.keeps.valid
  obtain ⟨hI', _, _, hf, _⟩ := gridInsert_spec k.lawful g k.dyn pose cloud st st' hI h
  rw [mem_bundleIndices k.lawful st' hI'.inv, ← mem_allocated_iff, Abs.mem_allocated, hf, hv, mem_bundleIndices k.lawful st hI.inv, ← mem_allocated_iff, Abs.mem_allocated]
  have hp : (∃ p ∈ accList g ((k.init (Multiset (Pt K d))).abs.valid k.dyn) pose cloud, toBundleIndex g.r p = bi) ↔
      ∃ p ∈ Spec.acceptedPoints g k pose cloud, Spec.InBundle g.r bi p := by
    rw [← accList_eq (Multiset (Pt K d)) g hr k]
    simp only [Multiset.mem_coe, toBundleIndex_spec hr]
  rw [← hp]
  split <;> simp_all

/-- **C89** (insertions only). After a history of insertions into an empty map the allocated bundles are exactly those that contain an accepted point. -/
theorem C89_only_hit_bundles (k : Kind d) (g : Geo K d) (hr : 0 < g.r) (exp : Multiset (Pt K d) → Bool) (l : List ((Pt K d → Pt K d) × List (Pt K d)))
    (st : St k.backend (Multiset (Pt K d))) (h : gridRun g k.dyn exp (l.map fun e => .insert e.1 e.2) (k.init _) = some st) (bi : Idx d) :
    bi ∈ st.bundleIndices ↔ ∃ p ∈ Spec.accepted g k (l.map fun e => .insert e.1 e.2), Spec.InBundle g.r bi p := by
  have hI := (gridRun_spec k.lawful g k.dyn exp _ _ st k.init_rinv h).1
  obtain ⟨hf, _⟩ := inserts_run k.lawful g k.dyn exp l _ st k.init_rinv h
  rw [mem_bundleIndices k.lawful st hI.inv, ← mem_allocated_iff, Abs.mem_allocated, hf]
  have hp : (∃ p ∈ accOps g ((k.init (Multiset (Pt K d))).abs.valid k.dyn) (inserts l), toBundleIndex g.r p = bi) ↔
      ∃ p ∈ Spec.accepted g k (l.map fun e => .insert e.1 e.2), Spec.InBundle g.r bi p := by
    have := accOps_eq (Multiset (Pt K d)) g hr k (inserts l)
    rw [show (l.map fun e => GridOp.insert e.1 e.2) = inserts l from rfl, ← this]
    simp only [Multiset.mem_coe, toBundleIndex_spec hr]
  rw [← hp]
  have h0 : (k.init (Multiset (Pt K d))).abs.flags bi = none := by
    have : bi ∉ (k.init (Multiset (Pt K d))).abs.allocated := by rw [Kind.init_allocated]; exact Set.notMem_empty _
    rw [Abs.mem_allocated] at this
    simpa using this
  rw [h0]
  split <;> simp_all

/-- **C89** (mapping the same area again is free). Inserting a cloud whose accepted points all lie in bundles that exist already leaves the reported size of an NDT map unchanged. -/
theorem C89_revisit (gb : Nat → Nat) (gb' : Nat) (g : Geo K d) (hr : 0 < g.r) (exp : Multiset (Pt K d) → Bool) (st st' : St (octreeBackend d) (Multiset (Pt K d)))
    (hst : Reachable (.dynamic gb gb') g exp st) (pose : Pt K d → Pt K d) (cloud : List (Pt K d)) (h : gridInsert g true pose cloud st = some st')
    (hin : ∀ p ∈ Spec.acceptedPoints g (.dynamic gb gb') pose cloud, ∃ bi ∈ st.bundleIndices, Spec.InBundle g.r bi p)
    (sz : MapSizes (Multiset (Pt K d))) (sizeofBundle sizeofDist : Nat)
    (hB : ∀ b, sz.bundle.data b = sizeofBundle) (hD : sz.dist.data = distributionByteSize sizeofDist) :
    st'.getByteSize sz = st.getByteSize sz := by
  have hR : MapReachable (.dynamic gb gb') exp st := by
    obtain ⟨ops, hops⟩ := hst
    exact grid_reachable g (.dynamic gb gb') exp ops _ st .init hops
  have hR' : MapReachable (.dynamic gb gb') exp st' :=
    grid_reachable g (.dynamic gb gb') exp [.insert pose cloud] st st' hR (by
      simp only [gridRun, gridStep, Kind.dyn]; rw [h]; rfl)
  refine C89_same_bundles st' st hR' hR ?_ sz sizeofBundle sizeofDist hB hD
  intro bi
  rw [C89_insert_allocates (.dynamic gb gb') g hr exp st st' hst pose cloud h bi]
  constructor
  · rintro (h | ⟨p, hp, hb⟩)
    · exact h
    · obtain ⟨bj, hj, hj'⟩ := hin p hp
      rw [← (toBundleIndex_spec hr p bi).2 hb, (toBundleIndex_spec hr p bj).2 hj']
      exact hj
  · exact Or.inl

omit [IsStrictOrderedRing K] in
/-- **C89** (growth along a history). No operation makes the reported size of an NDT map smaller. -/
theorem C89_never_shrinks (gb : Nat → Nat) (gb' : Nat) (g : Geo K d) (exp : Multiset (Pt K d) → Bool) (st st' : St (octreeBackend d) (Multiset (Pt K d)))
    (hst : Reachable (.dynamic gb gb') g exp st) (ops : List (GridOp K d)) (h : gridRun g true exp ops st = some st')
    (sz : MapSizes (Multiset (Pt K d))) (sizeofBundle sizeofDist : Nat)
    (hB : ∀ b, sz.bundle.data b = sizeofBundle) (hD : sz.dist.data = distributionByteSize sizeofDist) :
    st.getByteSize sz ≤ st'.getByteSize sz := by
  have hR : MapReachable (.dynamic gb gb') exp st := by
    obtain ⟨ops, hops⟩ := hst
    exact grid_reachable g (.dynamic gb gb') exp ops _ st .init hops
  have hR' : MapReachable (.dynamic gb gb') exp st' := grid_reachable g (.dynamic gb gb') exp ops st st' hR h
  have hI : RInv (octreeLawful d) true st := hR.spec.1
  obtain ⟨hI', hK, _⟩ := gridRun_spec (octreeLawful d) g true exp ops st st' hI h
  refine C89_monotone st st' hR hR' ?_ sz sizeofBundle hB fun c i x _ _ => by rw [hD]; exact le_refl _
  intro bi hb
  rw [mem_bundleIndices (octreeLawful d) st' hI'.inv, ← mem_allocated_iff]
  refine hK.allocated ?_
  rw [mem_allocated_iff, ← mem_bundleIndices (octreeLawful d) st hI.inv]
  exact hb

/-- Non-vacuity of C89: a map of resolution 1 that saw points in the bundles 0 and 1 (both in cell 0 of grid 0, in the cells 0 and 1 of grid 1), and the size it reports when all types take one byte:
1 for the map, 1 + 18 + 16*2 + 4 for the bundles, 1 + 17 + 16*2 + 2 and 1 + 18 + 16*2 + 4 for the grids. Inserting the same cloud once more does not change the size. -/
def byteGeo : Geo ℚ 1 := { r := 1, toMap := id, normal := fun _ => true }

def byteSizes : MapSizes (Multiset (Pt ℚ 1)) where
  this := 1
  bundle := { this := 1, node := 1, ptr := 1, index := 1, data := fun _ => 1 }
  dist := { this := 1, node := 1, ptr := 1, index := 1, data := distributionByteSize 1 }

example : (gridRun byteGeo true (fun _ => false) [.insert id [![1/5], ![3/5]]] ((Kind.dynamic 0 0).init (Multiset (Pt ℚ 1)))).map (fun st => (st.bundleIndices, st.getByteSize byteSizes)) =
    some ([![0], ![1]], 163) := by decide +kernel

example : (gridRun byteGeo true (fun _ => false) [.insert id [![1/5], ![3/5]], .insert id [![2/5], ![3/5]]] ((Kind.dynamic 0 0).init (Multiset (Pt ℚ 1)))).map (fun st => st.getByteSize byteSizes) =
    some 163 := by decide +kernel

/-- the closed formula for the same map -/
example : 1 + Spec.treeBytes 1 1 1 1 (fun _ => 1) ({![0], ![1]} : Finset (Idx 1)) +
    ∑ c ∈ Finset.range (2 ^ 1), Spec.treeBytes 1 1 1 1 (fun _ => 1) (({![0], ![1]} : Finset (Idx 1)).image (generateIndex · c)) = 163 := by decide +kernel

end
end Ndt
