import Verif.Spec.Resolutions
import Verif.Props.Gridmap
import Verif.Props.OccMap
import Verif.Props.Evidence
import Mathlib.Algebra.BigOperators.Group.Finset.Pi
import Mathlib.Data.Fintype.BigOperators
import Mathlib.Order.Interval.Finset.Basic
import Mathlib.Data.Int.Interval

/-!
C109: maps of different resolutions.
-/

namespace Ndt

open Spec

section
variable {K : Type} [Field K] [LinearOrder K] [IsStrictOrderedRing K] [FloorRing K] {d : Nat}

open scoped Classical in
theorem count_sum_filter (m : Multiset (Pt K d)) (S : Finset (Idx d)) (P : Idx d → Pt K d → Prop) (p : Pt K d) :
    (∑ j ∈ S, m.filter (P j)).count p = (S.filter fun j => P j p).card * m.count p := by
  rw [Multiset.count_sum', Finset.card_filter, Finset.sum_mul]
  refine Finset.sum_congr rfl fun j _ => ?_
  rw [Multiset.count_filter]
  split <;> simp

open scoped Classical in
theorem cells_below {r : K} (hr : 0 < r) (c : Nat) (S : Finset (Idx d)) (r' : K) (c' : Nat) (i : Idx d) (h : ∀ j ∈ S, CellInside r c j r' c' i) (m : Multiset (Pt K d)) :
    ∑ j ∈ S, m.filter (InCell r c j) ≤ m.filter (InCell r' c' i) := by
  rw [Multiset.le_iff_count]
  intro p
  rw [count_sum_filter, Multiset.count_filter]
  have h1 : (S.filter fun j => InCell r c j p).card ≤ 1 := by
    rw [Finset.card_le_one]
    intro a ha b hb
    exact inCell_unique hr p c a b (Finset.mem_filter.1 ha).2 (Finset.mem_filter.1 hb).2
  split
  · calc _ ≤ 1 * m.count p := Nat.mul_le_mul_right _ h1
      _ = _ := one_mul _
  · rename_i hn
    rw [Finset.filter_eq_empty_iff.2 fun j hj hp => hn (h j hj p hp)]
    simp

open scoped Classical in
theorem cells_above {r : K} (c : Nat) (S : Finset (Idx d)) (r' : K) (c' : Nat) (i : Idx d) (h : Covered r c S r' c' i) (m : Multiset (Pt K d)) :
    m.filter (InCell r' c' i) ≤ ∑ j ∈ S, m.filter (InCell r c j) := by
  rw [Multiset.le_iff_count]
  intro p
  rw [count_sum_filter, Multiset.count_filter]
  split
  · rename_i hp
    obtain ⟨j, hj, hjp⟩ := h p hp
    have : 1 ≤ (S.filter fun j => InCell r c j p).card := Finset.card_pos.2 ⟨j, Finset.mem_filter.2 ⟨hj, hjp⟩⟩
    calc _ = 1 * m.count p := (one_mul _).symm
      _ ≤ _ := Nat.mul_le_mul_right _ this
  · exact Nat.zero_le _

/-- first index, along an axis, of the cells that divide cell `k` -/
def firstPart (n : Nat) (c : Nat) (i : Idx d) (a : Fin d) : Int := i a * n - if c.testBit a.1 then (n / 2 : Nat) else 0

/-- the cells of grid `dividing n c` that divide cell `k` of grid `c` -/
noncomputable def parts (n : Nat) (c : Nat) (i : Idx d) : Finset (Idx d) := Fintype.piFinset fun a => Finset.Ico (firstPart n c i a) (firstPart n c i a + n)

omit [FloorRing K] in
theorem firstPart_cast (n : Nat) (c : Nat) (i : Idx d) (a : Fin d) : (firstPart n c i a : K) - shift K (dividing n c) a.1 = ((i a : K) - shift K c a.1) * n := by
  unfold firstPart dividing shift
  have h2 : (2 : K) ≠ 0 := two_ne_zero
  by_cases hn : n % 2 = 0
  · obtain ⟨m, rfl⟩ : ∃ m, n = 2 * m := ⟨n / 2, by omega⟩
    rw [if_pos hn, Nat.mul_div_cancel_left _ (by norm_num)]
    simp only [Nat.zero_testBit]
    split
    · push_cast; field_simp; simp
    · push_cast; simp
  · obtain ⟨m, rfl⟩ : ∃ m, n = 2 * m + 1 := ⟨n / 2, by omega⟩
    rw [if_neg hn, show (2 * m + 1) / 2 = m by omega]
    split
    · push_cast; field_simp; ring
    · push_cast; ring

theorem parts_iff {r : K} (hr : 0 < r) {n : Nat} (hn : 0 < n) (c : Nat) (i j : Idx d) : j ∈ parts n c i ↔ CellInside r (dividing n c) j (n * r) c i := by
  have hn' : (0 : K) < n := Nat.cast_pos.2 hn
  unfold parts
  rw [Fintype.mem_piFinset]
  simp only [Finset.mem_Ico]
  constructor
  · intro h p hp a
    obtain ⟨h1, h2⟩ := h a
    obtain ⟨h3, h4⟩ := hp a
    have e := firstPart_cast (K := K) n c i a
    have h1' : ((firstPart n c i a : Int) : K) ≤ j a := by exact_mod_cast h1
    have h2' : (j a : K) + 1 ≤ (firstPart n c i a : Int) + n := by exact_mod_cast h2
    constructor
    · refine le_trans ?_ h3
      rw [← mul_assoc, ← e]
      exact mul_le_mul_of_nonneg_right (by linarith) hr.le
    · refine lt_of_lt_of_le h4 ?_
      rw [show ((i a : K) + 1 - shift K c a.1) * (n * r) = (((i a : K) - shift K c a.1) * n + n) * r by ring, ← e]
      exact mul_le_mul_of_nonneg_right (by linarith) hr.le
  · intro h a
    have e := firstPart_cast (K := K) n c i a
    have hin := h (fun b => ((j b : K) - shift K (dividing n c) b.1) * r) (fun b => ⟨le_refl _, mul_lt_mul_of_pos_right (by linarith) hr⟩) a
    obtain ⟨h3, h4⟩ := hin
    rw [← mul_assoc, ← e] at h3
    rw [show ((i a : K) + 1 - shift K c a.1) * (n * r) = (((i a : K) - shift K c a.1) * n + n) * r by ring, ← e] at h4
    have h3' := le_of_mul_le_mul_right h3 hr
    have h4' := lt_of_mul_lt_mul_right h4 hr.le
    have h5 : ((firstPart n c i a : Int) : K) ≤ j a := by linarith
    have h6 : (j a : K) < ((firstPart n c i a + n : Int) : K) := by push_cast; linarith
    exact ⟨by exact_mod_cast h5, by exact_mod_cast h6⟩

theorem parts_cover {r : K} (hr : 0 < r) (n : Nat) (c : Nat) (i : Idx d) : Covered r (dividing n c) (parts n c i) (n * r) c i := by
  intro p hp
  let j : Idx d := generateIndex (toBundleIndex r p) (dividing n c)
  have hj : InCell r (dividing n c) j p := inCell_of_inBundle hr p _ _ ((toBundleIndex_spec hr p _).1 rfl)
  refine ⟨j, ?_, hj⟩
  unfold parts
  rw [Fintype.mem_piFinset]
  intro a
  rw [Finset.mem_Ico]
  obtain ⟨h1, h2⟩ := hj a
  obtain ⟨h3, h4⟩ := hp a
  have e := firstPart_cast (K := K) n c i a
  rw [← mul_assoc, ← e] at h3
  rw [show ((i a : K) + 1 - shift K c a.1) * (n * r) = (((i a : K) - shift K c a.1) * n + n) * r by ring, ← e] at h4
  have h5 := lt_of_mul_lt_mul_right (lt_of_le_of_lt h3 h2) hr.le
  have h6 := lt_of_mul_lt_mul_right (lt_of_le_of_lt h1 h4) hr.le
  have h7 : ((firstPart n c i a : Int) : K) < ((j a + 1 : Int) : K) := by push_cast; linarith
  have h8 : (j a : K) < ((firstPart n c i a + n : Int) : K) := by push_cast; linarith
  have h7' : firstPart n c i a < j a + 1 := by exact_mod_cast h7
  exact ⟨by omega, by exact_mod_cast h8⟩

theorem parts_card (n : Nat) (c : Nat) (i : Idx d) : (parts n c i).card = n ^ d := by
  unfold parts
  rw [Fintype.card_piFinset]
  simp

/-- **C109** (NDT maps). If one map has `n` times the resolution of another one that received the same points, each of its distributions contains exactly the points of the `n^d` distributions of the other map whose cells lie
inside of its cell: of the same grid for odd `n`, of the unshifted one for even `n`. -/
theorem C109_multiple (kA kB : Kind d) (gA gB : Geo K d) (hr : 0 < gA.r) {n : Nat} (hn : 0 < n) (hgB : gB.r = n * gA.r) (expA expB : Multiset (Pt K d) → Bool) (opsA opsB : List (GridOp K d))
    (stA : St kA.backend (Multiset (Pt K d))) (stB : St kB.backend (Multiset (Pt K d))) (hA : gridRun gA kA.dyn expA opsA (kA.init _) = some stA) (hB : gridRun gB kB.dyn expB opsB (kB.init _) = some stB)
    (hacc : accepted gA kA opsA = accepted gB kB opsB) (c : Nat) (hc : c < 2 ^ d) (i : Idx d) :
    ∃ S : Finset (Idx d), (∀ j, j ∈ S ↔ CellInside gA.r (dividing n c) j gB.r c i) ∧ S.card = n ^ d ∧ (stB.content c i).getD 0 = ∑ j ∈ S, (stA.content (dividing n c) j).getD 0 := by
  classical
  have hc' : dividing n c < 2 ^ d := by unfold dividing; split; exact Nat.two_pow_pos d; exact hc
  have hrB : 0 < gB.r := by rw [hgB]; exact mul_pos (Nat.cast_pos.2 hn) hr
  refine ⟨parts n c i, fun j => by rw [hgB]; exact parts_iff hr hn c i j, parts_card n c i, ?_⟩
  have eB := C10_contents_exact kB gB hrB expB opsB stB hB c hc i
  have eA := fun j => C10_contents_exact kA gA hr expA opsA stA hA (dividing n c) hc' j
  rw [eB, Finset.sum_congr rfl fun j _ => eA j, ← hacc, hgB]
  exact le_antisymm (by convert cells_above _ _ _ _ _ (parts_cover hr n c i) _) (by convert cells_below hr _ _ _ _ _ (fun j hj => (parts_iff hr hn c i j).1 hj) _)

/-- **C109** (any two resolutions). For maps with unrelated resolutions: a distribution contains all points of the distributions whose cells lie inside of its cell, and no points but those of distributions whose cells cover it. -/
theorem C109_between (kA kB : Kind d) (gA gB : Geo K d) (hrA : 0 < gA.r) (hrB : 0 < gB.r) (expA expB : Multiset (Pt K d) → Bool) (opsA opsB : List (GridOp K d))
    (stA : St kA.backend (Multiset (Pt K d))) (stB : St kB.backend (Multiset (Pt K d))) (hA : gridRun gA kA.dyn expA opsA (kA.init _) = some stA) (hB : gridRun gB kB.dyn expB opsB (kB.init _) = some stB)
    (hacc : accepted gA kA opsA = accepted gB kB opsB) (c c' : Nat) (hc : c < 2 ^ d) (hc' : c' < 2 ^ d) (i : Idx d) (S : Finset (Idx d)) :
    ((∀ j ∈ S, CellInside gA.r c' j gB.r c i) → ∑ j ∈ S, (stA.content c' j).getD 0 ≤ (stB.content c i).getD 0) ∧
    (Covered gA.r c' S gB.r c i → (stB.content c i).getD 0 ≤ ∑ j ∈ S, (stA.content c' j).getD 0) := by
  classical
  have eB := C10_contents_exact kB gB hrB expB opsB stB hB c hc i
  have eA := fun j => C10_contents_exact kA gA hrA expA opsA stA hA c' hc' j
  rw [eB, Finset.sum_congr rfl fun j _ => eA j, ← hacc]
  exact ⟨fun h => by convert cells_below hrA _ _ _ _ _ h _, fun h => by convert cells_above _ _ _ _ _ h _⟩

/-- **C109** (dynamic maps). Dynamic maps with the same origin accept the same points, whatever their resolutions. -/
theorem C109_dynamic (fA fB : Nat → Nat) (nA nB : Nat) (gA gB : Geo K d) (hr : 0 < gA.r) {n : Nat} (hn : 0 < n) (hgB : gB.r = n * gA.r) (hmap : gB.toMap = gA.toMap) (hnormal : gB.normal = gA.normal)
    (expA expB : Multiset (Pt K d) → Bool) (ops : List (GridOp K d)) (stA : St (Kind.dynamic fA nA : Kind d).backend (Multiset (Pt K d))) (stB : St (Kind.dynamic fB nB : Kind d).backend (Multiset (Pt K d)))
    (hA : gridRun gA true expA ops ((Kind.dynamic fA nA).init _) = some stA) (hB : gridRun gB true expB ops ((Kind.dynamic fB nB).init _) = some stB) (c : Nat) (hc : c < 2 ^ d) (i : Idx d) :
    ∃ S : Finset (Idx d), (∀ j, j ∈ S ↔ CellInside gA.r (dividing n c) j gB.r c i) ∧ S.card = n ^ d ∧ (stB.content c i).getD 0 = ∑ j ∈ S, (stA.content (dividing n c) j).getD 0 := by
  refine C109_multiple (.dynamic fA nA) (.dynamic fB nB) gA gB hr hn hgB expA expB ops ops stA stB hA hB ?_ c hc i
  have hp : ∀ pose cloud, acceptedPoints gA (.dynamic fA nA) pose cloud = acceptedPoints gB (.dynamic fB nB) pose cloud := by
    intro pose cloud
    unfold acceptedPoints
    rw [hmap, hnormal]
    rfl
  clear hA hB
  induction ops with
  | nil => rfl
  | cons op ops ih =>
    cases op with
    | insert pose cloud =>
      unfold accepted
      rw [hp pose cloud, ih]
    | core op => exact ih

open scoped Classical in
/-- **C109** (hits of occupancy maps). The same for the hits of occupancy maps, and so for their numbers. -/
theorem C109_occupancy_hits (kA kB : Kind d) (gA gB : Geo K d) (hr : 0 < gA.r) {n : Nat} (hn : 0 < n) (hgB : gB.r = n * gA.r) (rayA rayB : Pt K d → Pt K d → List (Idx d)) (expA expB : Occ Nat (Pt K d) → Bool)
    (opsA opsB : List (OccMapOp K d Nat (Pt K d))) (hpA : ∀ op ∈ opsA, op.Plain) (hpB : ∀ op ∈ opsB, op.Plain) (stA : St kA.backend (Occ Nat (Pt K d))) (stB : St kB.backend (Occ Nat (Pt K d)))
    (hA : occRun (occFlavour K d) gA kA.dyn rayA expA opsA (kA.init _) = some stA) (hB : occRun (occFlavour K d) gB kB.dyn rayB expB opsB (kB.init _) = some stB)
    (hhits : ((scansOf opsA).map fun s => hits gA kA s).sum = ((scansOf opsB).map fun s => hits gB kB s).sum) (c : Nat) (hc : c < 2 ^ d) (i : Idx d) :
    ∃ S : Finset (Idx d), (∀ j, j ∈ S ↔ CellInside gA.r (dividing n c) j gB.r c i) ∧ S.card = n ^ d ∧
      ((stB.content c i).getD Occ.new).samples = ∑ j ∈ S, ((stA.content (dividing n c) j).getD Occ.new).samples ∧
      ((stB.content c i).getD Occ.new).numOccupied = ∑ j ∈ S, ((stA.content (dividing n c) j).getD Occ.new).numOccupied := by
  have hc' : dividing n c < 2 ^ d := by unfold dividing; split; exact Nat.two_pow_pos d; exact hc
  have hrB : 0 < gB.r := by rw [hgB]; exact mul_pos (Nat.cast_pos.2 hn) hr
  have key : ((stB.content c i).getD Occ.new).samples = ∑ j ∈ parts n c i, ((stA.content (dividing n c) j).getD Occ.new).samples := by
    have eB := (C27_occupancy_counts kB gB hrB rayB expB opsB hpB stB hB c hc i).2.1
    have eA := fun j => (C27_occupancy_counts kA gA hr rayA expA opsA hpA stA hA (dividing n c) hc' j).2.1
    rw [eB, Finset.sum_congr rfl fun j _ => eA j, ← hhits, hgB]
    exact le_antisymm (cells_above _ _ _ _ _ (parts_cover hr n c i) _) (cells_below hr _ _ _ _ _ (fun j hj => (parts_iff hr hn c i j).1 hj) _)
  refine ⟨parts n c i, fun j => by rw [hgB]; exact parts_iff hr hn c i j, parts_card n c i, key, ?_⟩
  simp only [Occ.numOccupied_eq]
  rw [key, Multiset.card_sum]

open scoped Classical in
/-- **C109** (hits of weighted maps). The same for the weighted hits of weighted maps, and so for the weights. -/
theorem C109_weighted_hits (kA kB : Kind d) (gA gB : Geo K d) (hr : 0 < gA.r) {n : Nat} (hn : 0 < n) (hgB : gB.r = n * gA.r) (rayA rayB : Pt K d → Pt K d → List (Idx d)) (expA expB : Occ K (Pt K d × K) → Bool)
    (opsA opsB : List (OccMapOp K d K (Pt K d × K))) (hpA : ∀ op ∈ opsA, op.Plain) (hpB : ∀ op ∈ opsB, op.Plain) (stA : St kA.backend (Occ K (Pt K d × K))) (stB : St kB.backend (Occ K (Pt K d × K)))
    (hA : occRun (weightedFlavour K d) gA kA.dyn rayA expA opsA (kA.init _) = some stA) (hB : occRun (weightedFlavour K d) gB kB.dyn rayB expB opsB (kB.init _) = some stB)
    (hhits : ((scansOf opsA).map fun s => hits gA kA s).sum = ((scansOf opsB).map fun s => hits gB kB s).sum) (c : Nat) (hc : c < 2 ^ d) (i : Idx d) :
    ∃ S : Finset (Idx d), (∀ j, j ∈ S ↔ CellInside gA.r (dividing n c) j gB.r c i) ∧ S.card = n ^ d ∧
      ((stB.content c i).getD Occ.new).samples = ∑ j ∈ S, ((stA.content (dividing n c) j).getD Occ.new).samples ∧
      ((stB.content c i).getD Occ.new).weightOccupied = ∑ j ∈ S, ((stA.content (dividing n c) j).getD Occ.new).weightOccupied := by
  have hc' : dividing n c < 2 ^ d := by unfold dividing; split; exact Nat.two_pow_pos d; exact hc
  have hrB : 0 < gB.r := by rw [hgB]; exact mul_pos (Nat.cast_pos.2 hn) hr
  have eq : ((((scansOf opsB).map fun s => hits gB kB s).sum).filter (InCell gB.r c i)) = ∑ j ∈ parts n c i, (((scansOf opsA).map fun s => hits gA kA s).sum).filter (InCell gA.r (dividing n c) j) := by
    rw [← hhits, hgB]
    exact le_antisymm (cells_above _ _ _ _ _ (parts_cover hr n c i) _) (cells_below hr _ _ _ _ _ (fun j hj => (parts_iff hr hn c i j).1 hj) _)
  obtain ⟨_, eB, wB⟩ := C27_weighted_counts kB gB hrB rayB expB opsB hpB stB hB c hc i
  have eA := fun j => (C27_weighted_counts kA gA hr rayA expA opsA hpA stA hA (dividing n c) hc' j).2
  refine ⟨parts n c i, fun j => by rw [hgB]; exact parts_iff hr hn c i j, parts_card n c i, ?_, ?_⟩
  · rw [eB, Finset.sum_congr rfl fun j _ => (eA j).1, eq]
    exact map_sum (Multiset.mapAddMonoidHom fun p : Pt K d => (p, (1 : K))) _ _
  · rw [wB, Finset.sum_congr rfl fun j _ => (eA j).2, eq, Multiset.card_sum, Nat.cast_sum]

end

/-! #### Non-vacuity -/

def coarseGeo : Geo ℚ 2 := { r := 2, toMap := id, normal := fun _ => true }

/-- the sample history of C10 runs at resolution 1 and at resolution 2 -/
theorem coarse_runs (exp : Multiset (Pt ℚ 2) → Bool) : ∃ st, gridRun coarseGeo true exp sampleOps ((Kind.dynamic 0 0).init (Multiset (Pt ℚ 2))) = some st := by
  refine dynamic_run_total coarseGeo exp 0 0 10 sampleOps _ (Kind.init_rinv (.dynamic 0 0)) (.refl ..) ?_ 10 (le_refl _) ?_ ?_
  · intro op hop
    simp only [sampleOps, List.mem_cons, List.not_mem_nil, or_false] at hop
    rcases hop with rfl | rfl | rfl | rfl
    · intro p hp a
      have : p ∈ ([![-3/10, 13/5], ![1/5, 1/5], ![1/5, 3/10]] : List (Pt ℚ 2)) := by simpa [accList, coarseGeo] using hp
      simp only [List.mem_cons, List.not_mem_nil, or_false] at this
      rcases this with rfl | rfl | rfl <;> fin_cases a <;>
        norm_num [toBundleIndex, bundleResolutionInv, bundleResolution, coarseGeo, abs_le]
    · show ∀ a, _
      decide
    · trivial
    · intro p hp a
      have : p ∈ ([![1/10, 1/10], ![1/5, 1/5]] : List (Pt ℚ 2)) := by simpa [accList, coarseGeo] using hp
      simp only [List.mem_cons, List.not_mem_nil, or_false] at this
      rcases this with rfl | rfl <;> fin_cases a <;>
        norm_num [toBundleIndex, bundleResolutionInv, bundleResolution, coarseGeo, abs_le]
  · intro bi hbi; rw [Kind.init_allocated] at hbi; exact absurd hbi (Set.notMem_empty _)
  · decide

/-- Non-vacuity of `C109_dynamic` (and so of `C109_multiple` and `C109_between`): the distribution of the coarse map around the origin (grid 3, cell (0,0)) consists of four distributions of the fine map, and is not empty. -/
example : ∃ stA stB, gridRun sampleGeo true (fun _ => true) sampleOps ((Kind.dynamic 0 0).init _) = some stA ∧ gridRun coarseGeo true (fun _ => true) sampleOps ((Kind.dynamic 0 0).init _) = some stB ∧
    coarseGeo.r = ((2 : Nat) : ℚ) * sampleGeo.r ∧ 4 ≤ ((stB.content 3 ![0, 0]).getD 0).card := by
  classical
  obtain ⟨stA, hA⟩ := sample_runs 0 0 fun _ => true
  obtain ⟨stB, hB⟩ := coarse_runs fun _ => true
  refine ⟨stA, stB, hA, hB, by norm_num [coarseGeo, sampleGeo], ?_⟩
  rw [C10_contents_exact (.dynamic 0 0) coarseGeo (by norm_num [coarseGeo]) _ sampleOps stB hB 3 (by norm_num)]
  have e : accepted coarseGeo (.dynamic 0 0) sampleOps = ((([![-3/10, 13/5], ![1/5, 1/5], ![1/5, 3/10], ![1/10, 1/10], ![1/5, 1/5]] : List (Pt ℚ 2)) : Multiset (Pt ℚ 2))) := by
    rw [← accOps_eq (Multiset (Pt ℚ 2)) coarseGeo (by norm_num [coarseGeo])]
    rfl
  have : ((([![1/5, 1/5], ![1/5, 3/10], ![1/10, 1/10], ![1/5, 1/5]] : List (Pt ℚ 2)) : Multiset (Pt ℚ 2))) ≤ (accepted coarseGeo (.dynamic 0 0) sampleOps).filter (InCell coarseGeo.r 3 ![0, 0]) := by
    rw [Multiset.le_filter, e]
    refine ⟨Multiset.coe_le.2 (List.Sublist.subperm (List.sublist_cons_self _ _)), ?_⟩
    intro p hp
    simp only [Multiset.mem_coe, List.mem_cons, List.not_mem_nil, or_false] at hp
    rcases hp with rfl | rfl | rfl | rfl <;> intro a <;> fin_cases a <;> norm_num [coarseGeo, shift, show Nat.testBit 3 0 = true from rfl, show Nat.testBit 3 1 = true from rfl]
  exact (Multiset.card_le_card this)

def evCoarse : Geo ℝ 1 := { r := 3, toMap := id, normal := fun _ => true }

theorem evCoarse_hits (W : Type) : hits evCoarse evKind (evObstacle W) = {fun _ => 6 / 5} := by
  unfold hits acceptedPoints
  have e : (((((evObstacle W).cloud.filter fun p => evCoarse.normal p).map (evObstacle W).pose).filter fun p => evCoarse.normal p).map evCoarse.toMap : List (Pt ℝ 1)) = [fun _ => 6 / 5] := by simp [evObstacle, evScan, evCoarse]
  rw [e, Multiset.coe_singleton, Multiset.filter_singleton, if_pos]
  intro a
  constructor
  · show ((0 : Int) : ℝ) * (3 / 2) ≤ 6 / 5
    norm_num
  · show (6 / 5 : ℝ) < (((0 : Int) : ℝ) + 2 * ((8 : Nat) : ℝ) - 1) * (3 / 2)
    norm_num

/-- Non-vacuity of `C109_occupancy_hits` and `C109_weighted_hits`: a scan in static maps of resolutions 1 and 3. -/
example {W E : Type} [AddCommMonoid W] (fl : Flavour ℝ 1 W E) : ∃ stA stB, occRun fl evGeo evKind.dyn (fun _ _ => []) (fun _ => false) (evFirst W E) (evKind.init _) = some stA ∧
    occRun fl evCoarse evKind.dyn (fun _ _ => []) (fun _ => false) (evFirst W E) (evKind.init _) = some stB ∧ evCoarse.r = ((3 : Nat) : ℝ) * evGeo.r ∧
    ((scansOf (evFirst W E)).map fun s => hits evGeo evKind s).sum = ((scansOf (evFirst W E)).map fun s => hits evCoarse evKind s).sum ∧ ((scansOf (evFirst W E)).map fun s => hits evCoarse evKind s).sum ≠ 0 := by
  obtain ⟨stA, hA⟩ := occRun_total evKind.lawful fl evGeo evKind.dyn (fun _ _ => []) (fun _ => false) (evFirst W E) _ evKind.init_rinv (fun j h => Kind.static_good _ _ _ h)
  obtain ⟨stB, hB⟩ := occRun_total evKind.lawful fl evCoarse evKind.dyn (fun _ _ => []) (fun _ => false) (evFirst W E) _ evKind.init_rinv (fun j h => Kind.static_good _ _ _ h)
  refine ⟨stA, stB, hA, hB, by norm_num [evCoarse, evGeo], ?_, ?_⟩ <;>
    simp only [evFirst, scansOf, List.map_cons, List.map_nil, List.sum_cons, List.sum_nil, add_zero, evCoarse_hits]
  · exact ev_hits W _ _ (by norm_num)
  · exact Multiset.singleton_ne_zero _

end Ndt
