import Verif.Proofs.AnyCopy
import Verif.Props.Copy

/-! Property theorems C84: destruction of maps and of their copies. -/

namespace Ndt
open St

section
variable {K : Type} [Field K] [LinearOrder K] [IsStrictOrderedRing K] [FloorRing K] {d : Nat}

omit [IsStrictOrderedRing K] in
theorem Reachable.map {k : Kind d} {g : Geo K d} {exp : Multiset (Pt K d) → Bool} {st : St k.backend (Multiset (Pt K d))} (h : Reachable k g exp st) : MapReachable k exp st := by
  obtain ⟨ops, h⟩ := h
  exact grid_reachable g k exp ops _ st .init h

/-- **C84 (refuted, static maps).** Once the original of a copied static map is destroyed, the copy must not be read any more: after any history of operations on the two objects, every bin of every
bundle that existed when the copy was made could be read before, and refers to a released object afterwards. -/
theorem C84_copy_dangling_refuted (g : Geo K d) (exp : Multiset (Pt K d) → Bool) (size : Fin d → Nat) (lo : Idx d) (st : St (arrayBackend d) (Multiset (Pt K d)))
    (hst : Reachable (.static size lo) g exp st) (hist : List (Bool × GridOp K d)) (T : Twin (arrayBackend d) (Multiset (Pt K d)))
    (h : (copyStatic st).run g false exp hist = some T) (bi : Idx d) (hbi : bi ∈ st.bundleIndices) (c : Nat) (hc : c < 2 ^ d) :
    (T.viewC.readBin [] bi c).isSome = true ∧ T.viewC.readBin (released (.static size lo) T.viewO.storage) bi c = none :=
  copy_dangling exp (gridStep g false exp) (fun op st st' hW h => grow_gridStep _ g false exp op st st' hW h) size lo st hst.map hist T h bi hbi c hc

/-- **C84** (part, static maps). All other reads stay what they were: destroying the copy changes nothing for the original, and destroying the original changes nothing for those bundles of the copy that
did not exist yet when it was made. Missing with respect to C84: the bundles of the refutation. -/
theorem C84_others_survive_partial (g : Geo K d) (exp : Multiset (Pt K d) → Bool) (size : Fin d → Nat) (lo : Idx d) (st : St (arrayBackend d) (Multiset (Pt K d)))
    (hst : Reachable (.static size lo) g exp st) (hist : List (Bool × GridOp K d)) (T : Twin (arrayBackend d) (Multiset (Pt K d)))
    (h : (copyStatic st).run g false exp hist = some T) (bi : Idx d) (c : Nat) :
    T.viewO.readBin (released (.static size lo) T.viewC.storage) bi c = T.viewO.readBin [] bi c ∧
    (bi ∉ st.bundleIndices → T.viewC.readBin (released (.static size lo) T.viewO.storage) bi c = T.viewC.readBin [] bi c) :=
  others_survive exp (gridStep g false exp) (fun op st st' hW h => grow_gridStep _ g false exp op st st' hW h) size lo st hst.map hist T h bi c

omit [IsStrictOrderedRing K] in
/-- **C84** (part, release). Destroying a static map releases exactly the distribution objects it has allocated during its life. -/
theorem C84_static_released_partial (g : Geo K d) (exp : Multiset (Pt K d) → Bool) (size : Fin d → Nat) (lo : Idx d) (st : St (arrayBackend d) (Multiset (Pt K d)))
    (hst : Reachable (.static size lo) g exp st) (a : Nat) : a ∈ released (.static size lo) st.storage ↔ a < st.next :=
  hst.map.all_owned a

omit [IsStrictOrderedRing K] in
/-- **C84 (refuted, release).** Destroying a dynamic map releases none of its distribution objects: each bin of each bundle refers to an object that the map has allocated and that still exists afterwards,
although nothing refers to it any more. -/
theorem C84_dynamic_leak_refuted (g : Geo K d) (exp : Multiset (Pt K d) → Bool) (gs : Nat → Nat) (gb : Nat) (st : St (octreeBackend d) (Multiset (Pt K d)))
    (hst : Reachable (.dynamic gs gb) g exp st) (bi : Idx d) (hbi : bi ∈ st.bundleIndices) (c : Nat) (hc : c < 2 ^ d) :
    ∃ a, ((st.bundle bi).bind fun b => b.data c) = some a ∧ a ∈ ownedObjects (octreeBackend d) st.storage ∧ a ∉ released (.dynamic gs gb) st.storage := by
  have hI : Inv (octreeLawful d) st := hst.rinv.inv
  obtain ⟨b, hb⟩ := Option.isSome_iff_exists.1 ((mem_bundleIndices _ st hI bi).1 hbi)
  obtain ⟨a, ha, hk⟩ := hI.complete bi b hb c hc
  exact ⟨a, by rw [hb]; exact ha, (mem_owned (octreeLawful d) st hI.store a).2 ⟨c, _, hc, hk⟩, List.not_mem_nil⟩

omit [Field K] [LinearOrder K] [IsStrictOrderedRing K] [FloorRing K] in
/-- **C84** (part, dynamic maps). Because of that, original and copy of a dynamic map survive each other: every read gives the same as before the destruction of the other. -/
theorem C84_dynamic_survive_partial (gs : Nat → Nat) (gb : Nat) (T : Twin (octreeBackend d) (Multiset (Pt K d))) (bi : Idx d) (c : Nat) :
    T.viewO.readBin (released (.dynamic gs gb) T.viewC.storage) bi c = T.viewO.readBin [] bi c ∧
    T.viewC.readBin (released (.dynamic gs gb) T.viewO.storage) bi c = T.viewC.readBin [] bi c := ⟨rfl, rfl⟩

/-- a static map with the bundle 0 -/
def lifeMap : Option (St (arrayBackend 1) (Multiset (Pt ℚ 1))) := gridRun oneGeo false oneExp [.core (.bundleAt ![0])] ((Kind.static ![2] ![0]).init _)

/-- the map and its copy after operations on both -/
def lifeTwin : Option (Twin (arrayBackend 1) (Multiset (Pt ℚ 1))) :=
  lifeMap.bind fun st => (copyStatic st).run oneGeo false oneExp [(true, .core (.bundleAt ![2])), (false, .core (.bundleAt ![1]))]

theorem lifeMap_runs : lifeMap.isSome = true := by decide +kernel
theorem lifeTwin_runs : lifeTwin.isSome = true := by decide +kernel

/-- Non-vacuity: a reachable static map with a bundle, its copy, and a history on both; the copy then has a bundle that dangles and a newer one that does not. -/
example : ∃ st T, Reachable (.static ![2] ![0]) oneGeo oneExp st ∧ (![0] : Idx 1) ∈ st.bundleIndices ∧ (![2] : Idx 1) ∉ st.bundleIndices ∧
    (copyStatic st).run oneGeo false oneExp [(true, .core (.bundleAt ![2])), (false, .core (.bundleAt ![1]))] = some T ∧
    T.viewC.readBin (released (.static ![2] ![0]) T.viewO.storage) ![2] 0 = some 0 ∧
    T.viewC.readBin (released (.static ![2] ![0]) T.viewO.storage) ![0] 0 = none := by
  have e : (copyStatic (lifeMap.get lifeMap_runs)).run oneGeo false oneExp [(true, .core (.bundleAt ![2])), (false, .core (.bundleAt ![1]))] = some (lifeTwin.get lifeTwin_runs) := by
    rw [Option.some_get]
    unfold lifeTwin
    conv_rhs => rw [← Option.some_get lifeMap_runs]
    rfl
  exact ⟨lifeMap.get lifeMap_runs, lifeTwin.get lifeTwin_runs, ⟨[.core (.bundleAt ![0])], (Option.some_get lifeMap_runs).symm⟩, by decide +kernel, by decide +kernel, e, by decide +kernel, by decide +kernel⟩

end
end Ndt
