import Verif.Proofs.OccRange
import Verif.Props.AnyMap

/-! Property theorem C51 for occupancy maps. -/

namespace Ndt
open St Abs

section
variable {K : Type} [Field K] [LinearOrder K] [IsStrictOrderedRing K] [FloorRing K] {d : Nat}

theorem range_any {W E : Type} [AddCommMonoid W] (fl : Flavour K d W E) (hmean : ∀ s : Multiset (Pt K d), fl.mean (s.map fl.sample) = Spec.meanOf s) (gb : Nat → Nat) (gb' : Nat) (g : Geo K d) (hr : 0 < g.r)
    (defRay : Pt K d → Pt K d → List (Idx d)) (exp : Occ W E → Bool) (n : Nat) (ops : List (OccMapOp K d W E))
    (hops : ∀ op ∈ ops, OccOpWithin fl g defRay n op) (hn : n < 32767) (hn' : n + occExpansions ops ≤ 32767) :
    ∃ st, occRun fl g true defRay exp ops (dynInit d (Occ W E) gb gb') = some st ∧ ∀ b ∈ st.bundleIndices, ∀ a, |b a| ≤ (n + occExpansions ops : Nat) := by
  have hI := Kind.init_rinv (D := Occ W E) (.dynamic gb gb' : Kind d)
  obtain ⟨st, h1, h2⟩ := occRun_range fl hmean g hr defRay exp gb gb' n (by exact_mod_cast hn) ops _ hI (.refl ..) hops n (le_refl _) (by
    intro bi hbi
    exact absurd (Kind.init_allocated (D := Occ W E) (.dynamic gb gb') ▸ hbi : bi ∈ (∅ : Set (Idx d))) (Set.notMem_empty _)) (by exact_mod_cast hn')
  refine ⟨st, h1, fun b hb a => ?_⟩
  have hI' := (occRun_inv (octreeLawful d) fl g true defRay exp ops _ st hI h1).1
  push_cast
  exact h2 b ((mem_allocated_iff st b).2 ((mem_bundleIndices (octreeLawful d) st hI'.inv b).1 hb)) a

/-- **C51** (occupancy maps). A history on a dynamic occupancy map, with or without visibility tests, whose hits, ray cells and lookups only concern bundle indices with coordinates in `[-n, n]`, and which contains `e` expansion
calls, stays within the index range of the octree whenever `n + e ≤ 32767` and `n < 32767` (the visibility test looks at the neighbours of the ray cells). All bundles it allocates have coordinates in `[-(n+e), n+e]`. -/
theorem C51_occupancy_in_range (gb : Nat → Nat) (gb' : Nat) (g : Geo K d) (hr : 0 < g.r) (defRay : Pt K d → Pt K d → List (Idx d)) (exp : Occ Nat (Pt K d) → Bool) (n : Nat)
    (ops : List (OccMapOp K d Nat (Pt K d))) (hops : ∀ op ∈ ops, OccOpWithin (occFlavour K d) g defRay n op) (hn : n < 32767) (hn' : n + occExpansions ops ≤ 32767) :
    ∃ st, occRun (occFlavour K d) g true defRay exp ops (dynInit d _ gb gb') = some st ∧ ∀ b ∈ st.bundleIndices, ∀ a, |b a| ≤ (n + occExpansions ops : Nat) :=
  range_any (occFlavour K d) occFlavour_mean gb gb' g hr defRay exp n ops hops hn hn'

/-- **C51** (weighted maps). -/
theorem C51_weighted_in_range (gb : Nat → Nat) (gb' : Nat) (g : Geo K d) (hr : 0 < g.r) (defRay : Pt K d → Pt K d → List (Idx d)) (exp : Occ K (Pt K d × K) → Bool) (n : Nat)
    (ops : List (OccMapOp K d K (Pt K d × K))) (hops : ∀ op ∈ ops, OccOpWithin (weightedFlavour K d) g defRay n op) (hn : n < 32767) (hn' : n + occExpansions ops ≤ 32767) :
    ∃ st, occRun (weightedFlavour K d) g true defRay exp ops (dynInit d _ gb gb') = some st ∧ ∀ b ∈ st.bundleIndices, ∀ a, |b a| ≤ (n + occExpansions ops : Nat) :=
  range_any (weightedFlavour K d) weightedFlavour_mean gb gb' g hr defRay exp n ops hops hn hn'

end

open scoped Classical in
/-- the scans of the examples, with a ray tracer that always yields the bundles (0,0) and (1,0), stay within `[-10, 10]` -/
theorem visScan_within (W : Type) (cloud : List (Pt ℚ 2)) (h : ∀ p ∈ cloud, p = pA ∨ p = pB ∨ p = pC) : ScanWithin unitGeo 10 (visScan W cloud fun _ _ => [![0, 0], ![1, 0]]) := by
  intro b hb
  constructor
  · unfold Spec.hitBundles at hb
    rw [Multiset.mem_toFinset, Multiset.mem_map] at hb
    obtain ⟨p, hp, rfl⟩ := hb
    have hp' : p ∈ cloud := by
      unfold Spec.hits Spec.acceptedPoints at hp
      have := Multiset.mem_of_mem_filter hp
      simpa [visScan, unitGeo] using this
    intro a
    rcases h p hp' with rfl | rfl | rfl <;> fin_cases a <;> norm_num [unitGeo, pA, pB, pC]
  · intro x hx a
    have hx' : x ∈ ([![0, 0], ![1, 0]] : List (Idx 2)) := hx
    rcases List.mem_cons.1 hx' with rfl | hx'
    · fin_cases a <;> decide
    · rw [List.mem_singleton.1 hx']; fin_cases a <;> decide

/-- Non-vacuity: a history with three hits, a visibility-aware scan and two expansions. -/
example : ∃ st, occRun (occFlavour ℚ 2) unitGeo true xRay anyExp [.insert (visScan Nat [pA, pC] fun _ _ => [![0, 0], ![1, 0]]),
    .insertVisible (visScan Nat [pB] fun _ _ => [![0, 0], ![1, 0]]) (some hitOcc) (some visVm), .core .expandAll, .core .expandAll] (dynInit 2 _ (fun _ => 0) 0) = some st ∧
    ∀ b ∈ st.bundleIndices, ∀ a, |b a| ≤ 12 := by
  refine C51_occupancy_in_range (fun _ => 0) 0 unitGeo (by norm_num [unitGeo]) xRay anyExp 10 _ ?_ (by decide) (by decide)
  intro op hop
  fin_cases hop
  · exact visScan_within Nat _ (by simp)
  · exact visScan_within Nat _ (by simp)
  · trivial
  · trivial

end Ndt
