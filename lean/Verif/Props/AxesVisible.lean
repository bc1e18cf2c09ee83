import Verif.Props.AxesSamples
import Verif.Props.ScanOrder

/-!
Property theorems C106 and C110, the part that is false: visibility-aware insertions do not treat the axes alike.
-/

namespace Ndt
open St Spec

/-- The origin is in the bundle (0, 3). Two points are in the bundles (0, 2) and (1, 3) beside it, the third is in the bundle (2, 1), and the straight line to it goes through the bundle (1, 2) between the other two. -/
def cornerScan (W : Type) : Scan ℚ 2 W :=
  { pose := fun p => p + ![1 / 2, 7 / 2], cloud := [![0, -1], ![1, 0], ![2, -2]], ray := fun _ e => if 2 ≤ e 0 then [![0, 3], ![1, 2]] else [![0, 3]], order := id, order_perm := fun l => List.Perm.refl l }
/-- the scan with the axes exchanged -/
def cornerSwapped (W : Type) : Scan ℚ 2 W :=
  { cornerScan W with pose := permuteMap axesSwap (cornerScan W).pose, cloud := (cornerScan W).cloud.map (permute axesSwap), ray := fun _ e => if 2 ≤ e 1 then [![3, 0], ![2, 1]] else [![3, 0]] }
/-- the mirror image of the scan -/
def cornerMirrored (W : Type) : Scan ℚ 2 W :=
  { cornerScan W with pose := mirrorMap mirrorX (cornerScan W).pose, cloud := (cornerScan W).cloud.map (mirror mirrorX), ray := fun _ e => if e 0 ≤ -2 then [![-1, 3], ![-2, 2]] else [![-1, 3]] }

def cornerRun {W E : Type} [AddCommMonoid W] (fl : Flavour ℚ 2 W E) (k : Kind 2) (g : Geo ℚ 2) (s : Scan ℚ 2 W) : Option (St k.backend (Occ W E)) :=
  occRun fl g k.dyn (fun _ _ => []) (fun _ => true) [.insertVisible s (some anyHit) (some clearVm)] (k.init _)

theorem cornerSwapped_permuted (W : Type) : PermutedScan axesSwap (cornerScan W) (cornerSwapped W) := by
  refine ⟨rfl, rfl, fun p q => ?_⟩
  have e1 : ([![3, 0], ![2, 1]] : List (Idx 2)) = List.map (permute axesSwap) [![0, 3], ![1, 2]] := by decide +kernel
  have e2 : ([![3, 0]] : List (Idx 2)) = List.map (permute axesSwap) [![0, 3]] := by decide +kernel
  have e3 : permute axesSwap q 1 = q 0 := by simp [permute, axesSwap]
  show (if 2 ≤ permute axesSwap q 1 then ([![3, 0], ![2, 1]] : List (Idx 2)) else [![3, 0]]) = List.map (permute axesSwap) (if 2 ≤ q 0 then [![0, 3], ![1, 2]] else [![0, 3]])
  rw [e3, e1, e2]
  split_ifs <;> rfl

theorem half_off (n : Int) : (1 / 2 : ℚ) ≠ n := by
  intro h
  have : (1 : ℚ) = ((2 * n : Int) : ℚ) := by push_cast; linarith
  have h' : (1 : Int) = 2 * n := by exact_mod_cast this
  omega

theorem cornerMirrored_mirrored (W : Type) : MirroredScan mirrorX unitGeo (cornerScan W) (cornerMirrored W) := by
  have off : ∀ x y : Int, OffBorders unitGeo.r (![(x : ℚ), (y : ℚ)] + ![1 / 2, 7 / 2]) := by
    intro x y a n h
    have h2 : (n : ℚ) * (unitGeo.r / 2) = n := by show (n : ℚ) * (2 / 2) = n; norm_num
    rw [h2] at h
    fin_cases a
    · exact half_off (n - x) (by push_cast; have : (x : ℚ) + 1 / 2 = n := h; linarith)
    · exact half_off (n - y - 3) (by push_cast; have : (y : ℚ) + 7 / 2 = n := h; linarith)
  refine ⟨rfl, rfl, fun p q _ _ => ?_, ?_, fun p hp => ?_⟩
  · have e1 : ([![-1, 3], ![-2, 2]] : List (Idx 2)) = List.map (mirrorBundle mirrorX) [![0, 3], ![1, 2]] := by decide +kernel
    have e2 : ([![-1, 3]] : List (Idx 2)) = List.map (mirrorBundle mirrorX) [![0, 3]] := by decide +kernel
    have e3 : mirror mirrorX q 0 ≤ -2 ↔ 2 ≤ q 0 := by
      have : mirror mirrorX q 0 = -q 0 := by simp [mirror, mirrorX]
      rw [this]
      constructor <;> intro h <;> linarith
    show (if mirror mirrorX q 0 ≤ -2 then ([![-1, 3], ![-2, 2]] : List (Idx 2)) else [![-1, 3]]) = List.map (mirrorBundle mirrorX) (if 2 ≤ q 0 then [![0, 3], ![1, 2]] else [![0, 3]])
    simp only [e3]
    rw [e1, e2]
    split_ifs <;> rfl
  · have := off 0 0
    have e : (![((0 : Int) : ℚ), ((0 : Int) : ℚ)] : Pt ℚ 2) = 0 := by decide +kernel
    rwa [e] at this
  · have e : ∀ p ∈ (cornerScan W).cloud, ∃ x y : Int, p = ![(x : ℚ), (y : ℚ)] := by
      intro p hp
      have hp' : p ∈ ([![0, -1], ![1, 0], ![2, -2]] : List (Pt ℚ 2)) := hp
      simp only [List.mem_cons, List.not_mem_nil, or_false] at hp'
      rcases hp' with rfl | rfl | rfl
      · exact ⟨0, -1, by norm_num⟩
      · exact ⟨1, 0, by norm_num⟩
      · exact ⟨2, -2, by norm_num⟩
    obtain ⟨x, y, rfl⟩ := e p hp
    exact off x y

theorem corner_runs : (cornerRun (occFlavour ℚ 2) pieceKind unitGeo (cornerScan Nat)).isSome = true := by decide +kernel
theorem corner_swap_runs : (cornerRun (occFlavour ℚ 2) (permuteKind axesSwap pieceKind) (permuteGeo axesSwap unitGeo) (cornerSwapped Nat)).isSome = true := by decide +kernel
theorem corner_mirror_runs : (cornerRun (occFlavour ℚ 2) (mirrorKind mirrorX pieceKind) (mirrorGeo mirrorX unitGeo) (cornerMirrored Nat)).isSome = true := by decide +kernel
theorem corner_runs_weighted : (cornerRun (weightedFlavour ℚ 2) pieceKind unitGeo (cornerScan ℚ)).isSome = true := by decide +kernel
theorem corner_swap_runs_weighted : (cornerRun (weightedFlavour ℚ 2) (permuteKind axesSwap pieceKind) (permuteGeo axesSwap unitGeo) (cornerSwapped ℚ)).isSome = true := by decide +kernel
theorem corner_mirror_runs_weighted : (cornerRun (weightedFlavour ℚ 2) (mirrorKind mirrorX pieceKind) (mirrorGeo mirrorX unitGeo) (cornerMirrored ℚ)).isSome = true := by decide +kernel

/-- **C106** (visibility-aware insertions do not treat the axes alike, both classes). `insertVisible` goes through the hit bundles in the order of their indices, first coordinate first, and returns at the first one whose ray is blocked by hits
recorded before. The third point of the scan is not recorded because the two points beside its ray come first; with the axes exchanged it comes first and is recorded. -/
theorem C106_visible_refuted : ∃ (σ : Equiv.Perm (Fin 2)) (k : Kind 2) (g : Geo ℚ 2) (ray : Pt ℚ 2 → Pt ℚ 2 → List (Idx 2)) (vm : VisModel ℚ) (c : Nat) (i : Idx 2), 0 < g.r ∧ c < 2 ^ 2 ∧
    (∃ (occ : Occ Nat (Pt ℚ 2) → ℚ) (s s' : Scan ℚ 2 Nat) (t : St k.backend (Occ Nat (Pt ℚ 2))) (t' : St (permuteKind σ k).backend (Occ Nat (Pt ℚ 2))), PermutedScan σ s s' ∧ (∀ F o, occ (mapHits F o) = occ o) ∧
      occRun (occFlavour ℚ 2) g k.dyn ray (fun _ => true) [.insertVisible s (some occ) (some vm)] (k.init _) = some t ∧
      occRun (occFlavour ℚ 2) (permuteGeo σ g) (permuteKind σ k).dyn ray (fun _ => true) [.insertVisible s' (some occ) (some vm)] ((permuteKind σ k).init _) = some t' ∧
      ((t.content c i).getD Occ.new).numOccupied = 0 ∧ ((t'.content (permuteGrid σ c) (permute σ i)).getD Occ.new).numOccupied = 1) ∧
    (∃ (occ : Occ ℚ (Pt ℚ 2 × ℚ) → ℚ) (s s' : Scan ℚ 2 ℚ) (t : St k.backend (Occ ℚ (Pt ℚ 2 × ℚ))) (t' : St (permuteKind σ k).backend (Occ ℚ (Pt ℚ 2 × ℚ))), PermutedScan σ s s' ∧ (∀ F o, occ (mapHits F o) = occ o) ∧
      occRun (weightedFlavour ℚ 2) g k.dyn ray (fun _ => true) [.insertVisible s (some occ) (some vm)] (k.init _) = some t ∧
      occRun (weightedFlavour ℚ 2) (permuteGeo σ g) (permuteKind σ k).dyn ray (fun _ => true) [.insertVisible s' (some occ) (some vm)] ((permuteKind σ k).init _) = some t' ∧
      ((t.content c i).getD Occ.new).weightOccupied = 0 ∧ ((t'.content (permuteGrid σ c) (permute σ i)).getD Occ.new).weightOccupied = 1) :=
  ⟨axesSwap, pieceKind, unitGeo, fun _ _ => [], clearVm, 0, ![1, 0], by norm_num [unitGeo], by norm_num,
    ⟨anyHit, cornerScan Nat, cornerSwapped Nat, (cornerRun (occFlavour ℚ 2) _ _ _).get corner_runs, (cornerRun (occFlavour ℚ 2) _ _ _).get corner_swap_runs, cornerSwapped_permuted Nat,
      fun F o => by unfold anyHit mapHits; rw [Option.isSome_map], (Option.some_get corner_runs).symm, (Option.some_get corner_swap_runs).symm, by decide +kernel, by decide +kernel⟩,
    ⟨anyHit, cornerScan ℚ, cornerSwapped ℚ, (cornerRun (weightedFlavour ℚ 2) _ _ _).get corner_runs_weighted, (cornerRun (weightedFlavour ℚ 2) _ _ _).get corner_swap_runs_weighted, cornerSwapped_permuted ℚ,
      fun F o => by unfold anyHit mapHits; rw [Option.isSome_map], (Option.some_get corner_runs_weighted).symm, (Option.some_get corner_swap_runs_weighted).symm, by decide +kernel, by decide +kernel⟩⟩

/-- **C110** (visibility-aware insertions are not symmetric, both classes): the same scan and its mirror image, whose points and origin lie on no borders. The third point is recorded in the mirror image only. -/
theorem C110_visible_refuted : ∃ (M : Fin 2 → Bool) (k : Kind 2) (g : Geo ℚ 2) (ray : Pt ℚ 2 → Pt ℚ 2 → List (Idx 2)) (vm : VisModel ℚ) (c : Nat) (i : Idx 2), 0 < g.r ∧ c < 2 ^ 2 ∧
    (∃ (occ : Occ Nat (Pt ℚ 2) → ℚ) (s s' : Scan ℚ 2 Nat) (t : St k.backend (Occ Nat (Pt ℚ 2))) (t' : St (mirrorKind M k).backend (Occ Nat (Pt ℚ 2))), MirroredScan M g s s' ∧ (∀ F o, occ (mapHits F o) = occ o) ∧
      occRun (occFlavour ℚ 2) g k.dyn ray (fun _ => true) [.insertVisible s (some occ) (some vm)] (k.init _) = some t ∧
      occRun (occFlavour ℚ 2) (mirrorGeo M g) (mirrorKind M k).dyn ray (fun _ => true) [.insertVisible s' (some occ) (some vm)] ((mirrorKind M k).init _) = some t' ∧
      ((t.content c i).getD Occ.new).numOccupied = 0 ∧ ((t'.content c (mirrorCell M c i)).getD Occ.new).numOccupied = 1) ∧
    (∃ (occ : Occ ℚ (Pt ℚ 2 × ℚ) → ℚ) (s s' : Scan ℚ 2 ℚ) (t : St k.backend (Occ ℚ (Pt ℚ 2 × ℚ))) (t' : St (mirrorKind M k).backend (Occ ℚ (Pt ℚ 2 × ℚ))), MirroredScan M g s s' ∧ (∀ F o, occ (mapHits F o) = occ o) ∧
      occRun (weightedFlavour ℚ 2) g k.dyn ray (fun _ => true) [.insertVisible s (some occ) (some vm)] (k.init _) = some t ∧
      occRun (weightedFlavour ℚ 2) (mirrorGeo M g) (mirrorKind M k).dyn ray (fun _ => true) [.insertVisible s' (some occ) (some vm)] ((mirrorKind M k).init _) = some t' ∧
      ((t.content c i).getD Occ.new).weightOccupied = 0 ∧ ((t'.content c (mirrorCell M c i)).getD Occ.new).weightOccupied = 1) :=
  ⟨mirrorX, pieceKind, unitGeo, fun _ _ => [], clearVm, 0, ![1, 0], by norm_num [unitGeo], by norm_num,
    ⟨anyHit, cornerScan Nat, cornerMirrored Nat, (cornerRun (occFlavour ℚ 2) _ _ _).get corner_runs, (cornerRun (occFlavour ℚ 2) _ _ _).get corner_mirror_runs, cornerMirrored_mirrored Nat,
      fun F o => by unfold anyHit mapHits; rw [Option.isSome_map], (Option.some_get corner_runs).symm, (Option.some_get corner_mirror_runs).symm, by decide +kernel, by decide +kernel⟩,
    ⟨anyHit, cornerScan ℚ, cornerMirrored ℚ, (cornerRun (weightedFlavour ℚ 2) _ _ _).get corner_runs_weighted, (cornerRun (weightedFlavour ℚ 2) _ _ _).get corner_mirror_runs_weighted, cornerMirrored_mirrored ℚ,
      fun F o => by unfold anyHit mapHits; rw [Option.isSome_map], (Option.some_get corner_runs_weighted).symm, (Option.some_get corner_mirror_runs_weighted).symm, by decide +kernel, by decide +kernel⟩⟩

end Ndt
