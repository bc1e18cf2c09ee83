import Verif.Props.Field
import Verif.Spec.Displaced
import Batteries.Data.Nat.Lemmas
import Mathlib.Tactic.LinearCombination

/-!
Property theorems C91 and C92: the choice of the coordinate frames does not influence the results. Moving the world together with the map (C91) changes nothing at all; moving the lattice of the map by a
multiple of half a cell (C92) changes the indices, but not the sampled field.
-/

namespace Ndt
open St Abs

/-! ### C91 -/
section
variable {K : Type} [Field K] [LinearOrder K] [FloorRing K] {d : Nat}

/-- the same operation with the sensor pose moved by `T` -/
def GridOp.moved (T : Pt K d → Pt K d) : GridOp K d → GridOp K d
  | .insert pose cloud => .insert (fun p => T (pose p)) cloud
  | .core op => .core op

def OccMapOp.moved {W E : Type} (T : Pt K d → Pt K d) : OccMapOp K d W E → OccMapOp K d W E
  | .insert s => .insert { s with pose := fun p => T (s.pose p) }
  | .insertVisible s occ vm => .insertVisible { s with pose := fun p => T (s.pose p) } occ vm
  | .core op => .core op

/-- `g'` is the geometry of the map of `g` moved by `T`: the pose of the map in the world is `O` resp. `T ∘ O`, `toMap` is the inverse of the pose. `T` preserves `isNormal()`. -/
structure Spec.Moved (T O : Pt K d → Pt K d) (g g' : Geo K d) : Prop where
  r : g'.r = g.r
  pose : ∀ p, O (g.toMap p) = p
  pose' : ∀ q, g'.toMap (T (O q)) = q
  normal : ∀ p, g'.normal p = g.normal p
  keeps : ∀ p, g.normal (T p) = g.normal p

theorem Spec.Moved.toMap {T O : Pt K d → Pt K d} {g g' : Geo K d} (h : Spec.Moved T O g g') (p : Pt K d) : g'.toMap (T p) = g.toMap p := by
  conv_lhs => rw [← h.pose p]
  exact h.pose' _

theorem collect_moved {T O : Pt K d → Pt K d} {g g' : Geo K d} (h : Spec.Moved T O g g') (ok : Idx d → Bool) (pose : Pt K d → Pt K d) (cloud : List (Pt K d)) :
    collect g' ok (fun p => T (pose p)) cloud = collect g ok pose cloud := by
  unfold collect
  congr 1
  funext u p
  simp only [h.normal, h.keeps, h.toMap, h.r]

/-- **C91** (NDT maps). Moving the map and all sensor poses of a history by the same motion `T` of the world leads to the same map: same bundles, same contents, same outcomes; and it is sampled at the moved
points with the same results. -/
theorem C91_world_frame (T O : Pt K d → Pt K d) (g g' : Geo K d) (h : Spec.Moved T O g g') {B : Backend d} (dyn : Bool) (exp : Multiset (Pt K d) → Bool) (ops : List (GridOp K d)) :
    (∀ st : St B (Multiset (Pt K d)), gridRun g' dyn exp (ops.map (GridOp.moved T)) st = gridRun g dyn exp ops st) ∧
    (∀ (st : St B (Multiset (Pt K d))) dens p, sampleNNAt g' dyn dens (T p) st = sampleNNAt g dyn dens p st ∧ sampleBilinearAt g' dyn dens (T p) st = sampleBilinearAt g dyn dens p st) := by
  constructor
  · induction ops with
    | nil => intro st; rfl
    | cons op l ih =>
      intro st
      have hs : gridStep g' dyn exp (op.moved T) st = gridStep g dyn exp op st := by
        cases op with
        | core op => rfl
        | insert pose cloud =>
          simp only [GridOp.moved, gridStep, gridInsert]
          rw [collect_moved h]
      simp only [List.map_cons, gridRun, hs]
      cases gridStep g dyn exp op st with
      | none => rfl
      | some s => exact ih s
  · intro st dens p
    unfold sampleNNAt sampleBilinearAt
    rw [h.toMap, h.r]
    exact ⟨rfl, rfl⟩

/-- **C91** (occupancy maps). The same for both occupancy map classes: scans with and without visibility test, and samples. -/
theorem C91_occupancy_world_frame {W E M : Type} [AddCommMonoid W] (fl : Flavour K d W E) (T O : Pt K d → Pt K d) (g g' : Geo K d) (h : Spec.Moved T O g g') {B : Backend d} (dyn : Bool)
    (defRay : Pt K d → Pt K d → List (Idx d)) (exp : Occ W E → Bool) (ops : List (OccMapOp K d W E)) :
    (∀ st : St B (Occ W E), occRun fl g' dyn defRay exp (ops.map (OccMapOp.moved T)) st = occRun fl g dyn defRay exp ops st) ∧
    (∀ (st : St B (Occ W E)) dens (occ : M → Occ W E → K) ivm p, occSampleNNAt g' dyn dens occ (T p) ivm st = occSampleNNAt g dyn dens occ p ivm st ∧
      occSampleBilinearAt g' dyn dens occ (T p) ivm st = occSampleBilinearAt g dyn dens occ p ivm st) := by
  have hc : ∀ (ok : Idx d → Bool) (pose : Pt K d → Pt K d) cloud, occCollect fl g' ok (fun p => T (pose p)) cloud = occCollect fl g ok pose cloud := by
    intro ok pose cloud
    unfold occCollect
    rw [collect_moved h]
    simp only [h.normal]
  have hi : ∀ (s : Scan K d W) (st : St B (Occ W E)), occInsert fl g' dyn { s with pose := fun p => T (s.pose p) } st = occInsert fl g dyn s st := by
    intro s st
    unfold occInsert rayStart
    simp only [hc, h.toMap]
  constructor
  · induction ops with
    | nil => intro st; rfl
    | cons op l ih =>
      intro st
      have hs : occStep fl g' dyn defRay exp (op.moved T) st = occStep fl g dyn defRay exp op st := by
        cases op with
        | core op => rfl
        | insert s => exact hi s st
        | insertVisible s occ vm =>
          simp only [OccMapOp.moved, occStep]
          cases occ with
          | none =>
            simp only [occInsertVisible]
            split
            · exact hi { s with ray := defRay } st
            · exact hi s st
          | some occ =>
            cases vm with
            | none =>
              simp only [occInsertVisible]
              split
              · exact hi { s with ray := defRay } st
              · exact hi s st
            | some vm =>
              simp only [occInsertVisible, rayStart, hc, h.toMap, h.r]
      simp only [List.map_cons, occRun, hs]
      cases occStep fl g dyn defRay exp op st with
      | none => rfl
      | some s => exact ih s
  · intro st dens occ ivm p
    unfold occSampleNNAt occSampleBilinearAt
    rw [h.toMap, h.r]
    exact ⟨rfl, rfl⟩

/-- **C91** (clouds in the world frame). For NDT maps, inserting a cloud with a sensor pose is the same as inserting the transformed cloud with the identity. -/
theorem C91_transformed_cloud (g : Geo K d) {B : Backend d} (dyn : Bool) (pose : Pt K d → Pt K d) (cloud : List (Pt K d)) (st : St B (Multiset (Pt K d))) :
    gridInsert g dyn pose cloud st = gridInsert g dyn id (cloud.map pose) st := by
  unfold gridInsert collect
  rw [List.foldl_map]
  rfl

end

/-- Non-vacuity: a quarter turn with a translation of the world, a map with the pose `O` (a translation) and the moved map. -/
def frameT : Pt ℚ 2 → Pt ℚ 2 := fun p => ![-p 1 + 3, p 0 - 1]
def frameO : Pt ℚ 2 → Pt ℚ 2 := fun p => ![p 0 + 5, p 1 + 7]
def frameGeo : Geo ℚ 2 := { r := 1, toMap := fun p => ![p 0 - 5, p 1 - 7], normal := fun _ => true }
def frameGeo' : Geo ℚ 2 := { r := 1, toMap := fun p => ![p 1 + 1 - 5, 3 - p 0 - 7], normal := fun _ => true }

example : Spec.Moved frameT frameO frameGeo frameGeo' ∧ frameGeo'.toMap ![0, 0] ≠ frameGeo.toMap ![0, 0] := by
  refine ⟨⟨rfl, fun p => ?_, fun q => ?_, fun _ => rfl, fun _ => rfl⟩, ?_⟩
  · funext a; fin_cases a <;> simp [frameO, frameGeo]
  · funext a; fin_cases a <;> simp [frameO, frameT, frameGeo']
  · intro h
    have := congrFun h 0
    norm_num [frameGeo, frameGeo'] at this

/-! ### C92 -/
section
variable {K : Type} [Field K] [LinearOrder K] [IsStrictOrderedRing K] [FloorRing K] {d : Nat}

/-- the grids whose cells become cells of grid `c` when moved by `t` half cells -/
theorem exists_mask (t : Idx d) : ∃ m, m < 2 ^ d ∧ ∀ a : Fin d, m.testBit a.1 = decide (t a % 2 = 1) :=
  ⟨Nat.ofBits fun a => decide (t a % 2 = 1), Nat.ofBits_lt_two_pow _, fun a => Nat.testBit_ofBits_lt _ a.1 a.2⟩

omit [LinearOrder K] [IsStrictOrderedRing K] [FloorRing K] in
theorem movedCell_offset [CharZero K] {t : Idx d} {m : Nat} (hm : ∀ a : Fin d, m.testBit a.1 = decide (t a % 2 = 1)) (c : Nat) (i : Idx d) (a : Fin d) :
    ((movedCell t c i a : Int) : K) - Spec.shift K (c ^^^ m) a.1 = (i a : K) - Spec.shift K c a.1 + (t a : K) / 2 := by
  unfold movedCell Spec.shift
  rw [Nat.testBit_xor, hm]
  by_cases h1 : t a % 2 = 1
  · by_cases h2 : c.testBit a.1 = true
    · have h3 : ((t a - 1) / 2 * 2 : Int) = t a - 1 := by omega
      have h4 : (((t a - 1) / 2 : Int) : K) * 2 = (t a : K) - 1 := by exact_mod_cast congrArg (Int.cast : Int → K) h3
      rw [if_pos h1, if_pos h2, if_pos h2, h2, h1, if_neg (by decide)]
      push_cast
      linear_combination (1 / 2 : K) * h4
    · have h2' := Bool.eq_false_iff.2 h2
      have h3 : ((t a + 1) / 2 * 2 : Int) = t a + 1 := by omega
      have h4 : (((t a + 1) / 2 : Int) : K) * 2 = (t a : K) + 1 := by exact_mod_cast congrArg (Int.cast : Int → K) h3
      rw [if_pos h1, if_neg h2, if_neg h2, h2', h1, if_pos (by decide)]
      push_cast
      linear_combination (1 / 2 : K) * h4
  · have h3 : (t a / 2 * 2 : Int) = t a := by omega
    have h4 : ((t a / 2 : Int) : K) * 2 = (t a : K) := by exact_mod_cast congrArg (Int.cast : Int → K) h3
    rw [if_neg h1, decide_eq_false h1, Bool.xor_false]
    push_cast
    linear_combination (1 / 2 : K) * h4

theorem inCell_moved {t : Idx d} {m : Nat} (hm : ∀ a : Fin d, m.testBit a.1 = decide (t a % 2 = 1)) (r : K) (v : Pt K d) (hv : ∀ a, v a = r / 2 * (t a : K)) (c : Nat) (i : Idx d) (q : Pt K d) :
    Spec.InCell r (c ^^^ m) (movedCell t c i) (Spec.translate v q) ↔ Spec.InCell r c i q := by
  refine forall_congr' fun a => ?_
  have h := movedCell_offset (K := K) hm c i a
  unfold Spec.translate
  rw [show ((movedCell t c i a : Int) : K) + 1 - Spec.shift K (c ^^^ m) a.1 = ((movedCell t c i a : Int) : K) - Spec.shift K (c ^^^ m) a.1 + 1 by ring, h, hv]
  refine and_congr ?_ ?_
  · rw [show ((i a : K) - Spec.shift K c a.1 + (t a : K) / 2) * r = ((i a : K) - Spec.shift K c a.1) * r + r / 2 * (t a : K) by ring]
    exact add_le_add_iff_right _
  · rw [show ((i a : K) - Spec.shift K c a.1 + (t a : K) / 2 + 1) * r = ((i a : K) + 1 - Spec.shift K c a.1) * r + r / 2 * (t a : K) by ring]
    exact add_lt_add_iff_right _

omit [IsStrictOrderedRing K] [FloorRing K] in
theorem hat_moved [CharZero K] {t : Idx d} {m : Nat} (hm : ∀ a : Fin d, m.testBit a.1 = decide (t a % 2 = 1)) (r : K) (v : Pt K d) (hv : ∀ a, v a = r / 2 * (t a : K)) (c : Nat) (i : Idx d) (q : Pt K d) :
    Spec.hat r (c ^^^ m) (movedCell t c i) (Spec.translate v q) = Spec.hat r c i q := by
  unfold Spec.hat
  refine Finset.prod_congr rfl fun a _ => ?_
  have h := movedCell_offset (K := K) hm c i a
  have : Spec.translate v q a - Spec.centre r (c ^^^ m) (movedCell t c i) a = q a - Spec.centre r c i a := by
    unfold Spec.translate Spec.centre
    rw [hv]
    linear_combination (-r) * h
  rw [this]

open scoped Classical in
theorem cellMates_moved {t : Idx d} {m : Nat} (hm : ∀ a : Fin d, m.testBit a.1 = decide (t a % 2 = 1)) {r : K} (hr : 0 < r) (v : Pt K d) (hv : ∀ a, v a = r / 2 * (t a : K)) (acc : Multiset (Pt K d)) (c : Nat)
    (q : Pt K d) : cellMates r (acc.map (Spec.translate v)) (c ^^^ m) (Spec.translate v q) = (cellMates r acc c q).map (Spec.translate v) := by
  unfold cellMates
  rw [Multiset.filter_map]
  congr 1
  refine Multiset.filter_congr fun a _ => ?_
  constructor
  · rintro ⟨i, h1, h2⟩
    have h3 := (C01_point_in_selected_cell hr q c _).1 rfl
    have h4 := (inCell_moved hm r v hv c _ q).2 h3
    have e : i = movedCell t c (generateIndex (toBundleIndex r q) c) := (cell_index hr _ _ _ h1).symm.trans (cell_index hr _ _ _ h4)
    rw [e] at h2
    exact ⟨_, h3, (inCell_moved hm r v hv c _ a).1 h2⟩
  · rintro ⟨i, h1, h2⟩
    exact ⟨movedCell t c i, (inCell_moved hm r v hv c i q).2 h1, (inCell_moved hm r v hv c i a).2 h2⟩

omit [LinearOrder K] [IsStrictOrderedRing K] [FloorRing K] in
theorem sum_xor (m : Nat) (hm : m < 2 ^ d) (f : Nat → K) : ∑ c ∈ Finset.range (2 ^ d), f (c ^^^ m) = ∑ c ∈ Finset.range (2 ^ d), f c := by
  refine Finset.sum_nbij' (fun c => c ^^^ m) (fun c => c ^^^ m) ?_ ?_ ?_ ?_ ?_
  · intro c hc; exact Finset.mem_range.2 (Nat.xor_lt_two_pow (Finset.mem_range.1 hc) hm)
  · intro c hc; exact Finset.mem_range.2 (Nat.xor_lt_two_pow (Finset.mem_range.1 hc) hm)
  · intro c _; simp [Nat.xor_assoc]
  · intro c _; simp [Nat.xor_assoc]
  · intro c _; rfl

open scoped Classical in
theorem accepted_moved (gb gb1 : Nat → Nat) (gb' gb1' : Nat) (g g' : Geo K d) (v : Pt K d) (hn : g'.normal = g.normal) (hm : ∀ p, g'.toMap p = Spec.translate v (g.toMap p)) :
    ∀ ops : List (GridOp K d), Spec.accepted g' (.dynamic gb1 gb1') ops = (Spec.accepted g (.dynamic gb gb') ops).map (Spec.translate v)
  | [] => rfl
  | .core _ :: l => accepted_moved gb gb1 gb' gb1' g g' v hn hm l
  | .insert pose cloud :: l => by
    show Spec.acceptedPoints g' _ pose cloud + Spec.accepted g' _ l = (Spec.acceptedPoints g _ pose cloud + Spec.accepted g _ l).map _
    rw [accepted_moved gb gb1 gb' gb1' g g' v hn hm l, Multiset.map_add]
    congr 1
    unfold Spec.acceptedPoints
    have ht : ∀ (k : Kind d) (_ : ∃ a b, k = .dynamic a b) (r : K) (s : Multiset (Pt K d)), s.filter (Spec.Region r k) = s := by
      rintro k ⟨a, b, rfl⟩ r s
      exact Multiset.filter_eq_self.2 fun _ _ => trivial
    rw [ht _ ⟨_, _, rfl⟩, ht _ ⟨_, _, rfl⟩, hn, Multiset.map_coe, List.map_map]
    congr 2
    funext p
    exact hm p

/-- **C92** (the lattice does not matter up to half cells). Two dynamic NDT maps whose coordinates differ by `t` half cells (an arbitrary integer vector) are given the same history, ending with neighbourhood
allocation. For densities that are invariant under translations, both maps have the same sampled field in the world, plain and bilinear, although the points lie in other bundles and other grids. -/
theorem C92_lattice_shift (gb gb1 : Nat → Nat) (gb' gb1' : Nat) (g g' : Geo K d) (hr : 0 < g.r) (hr' : g'.r = g.r) (hn : g'.normal = g.normal) (t : Idx d) (v : Pt K d) (hv : ∀ a, v a = g.r / 2 * (t a : K))
    (hm : ∀ p, g'.toMap p = Spec.translate v (g.toMap p)) (exp : Multiset (Pt K d) → Bool) (hexp : exp 0 = false) (ops : List (GridOp K d)) (more more' : List (CoreOp d))
    (st : St (Kind.dynamic (d := d) gb gb').backend (Multiset (Pt K d))) (h : gridRun g true exp (expandedHistory ops more) ((Kind.dynamic gb gb').init _) = some st)
    (st' : St (Kind.dynamic (d := d) gb1 gb1').backend (Multiset (Pt K d))) (h' : gridRun g' true exp (expandedHistory ops more') ((Kind.dynamic gb1 gb1').init _) = some st')
    (dens : Multiset (Pt K d) → Pt K d → K) (hd : ∀ s q, exp s = false → dens s q = 0) (hdt : ∀ v s q, dens (s.map (Spec.translate v)) (Spec.translate v q) = dens s q) (p : Pt K d) (x x' : K) :
    (sampleNNAt g true dens p st = some x → sampleNNAt g' true dens p st' = some x' → x' = x) ∧
    (sampleBilinearAt g true dens p st = some x → sampleBilinearAt g' true dens p st' = some x' → x' = x) := by
  obtain ⟨m, hm2, hmb⟩ := exists_mask t
  obtain ⟨a1, a2⟩ := C90_field_of_points (.dynamic gb gb') g hr exp hexp ops more st h dens hd p trivial x
  obtain ⟨b1, b2⟩ := C90_field_of_points (.dynamic gb1 gb1') g' (hr' ▸ hr) exp hexp ops more' st' h' dens hd p trivial x'
  rw [accepted_moved gb gb1 gb' gb1' g g' v hn hm ops, hm p, hr'] at b1 b2
  have key : ∀ c, dens (cellMates g.r ((Spec.accepted g (.dynamic gb gb') ops).map (Spec.translate v)) (c ^^^ m) (Spec.translate v (g.toMap p))) (Spec.translate v (g.toMap p)) =
      dens (cellMates g.r (Spec.accepted g (.dynamic gb gb') ops) c (g.toMap p)) (g.toMap p) := by
    intro c
    rw [cellMates_moved hmb hr v hv, hdt]
  have hi : ∀ c, Spec.InCell g.r c (generateIndex (toBundleIndex g.r (g.toMap p)) c) (g.toMap p) := fun c => (C01_point_in_selected_cell hr _ c _).1 rfl
  constructor
  · intro hx hx'
    rw [a1 hx, b1 hx', ← sum_xor m hm2]
    congr 1
    exact Finset.sum_congr rfl fun c _ => key c
  · intro hx hx'
    have hi' : ∀ c, Spec.InCell g.r c (movedCell t (c ^^^ m) (generateIndex (toBundleIndex g.r (g.toMap p)) (c ^^^ m))) (Spec.translate v (g.toMap p)) := by
      intro c
      have := (inCell_moved hmb g.r v hv (c ^^^ m) _ (g.toMap p)).2 (hi (c ^^^ m))
      rwa [Nat.xor_assoc, Nat.xor_self, Nat.xor_zero] at this
    rw [a2 hx _ hi, b2 hx' _ hi', ← sum_xor m hm2]
    refine Finset.sum_congr rfl fun c _ => ?_
    rw [key c, Nat.xor_assoc, Nat.xor_self, Nat.xor_zero, hat_moved hmb g.r v hv]

end

/-- the density of the next example: the sum of squared distances to the samples; it is invariant under translations -/
def squareDens : Multiset (Pt ℚ 1) → Pt ℚ 1 → ℚ := fun s q => (s.map fun a => (a 0 - q 0) ^ 2).sum
/-- the map of `fieldGeo`, displaced by three half cells -/
def fieldGeo3 : Geo ℚ 1 := { r := 1, toMap := fun p => Spec.translate (fun _ => 3 / 2) p, normal := fun _ => true }

theorem field_dynamic_runs (g : Geo ℚ 1) (h : ∀ p : Pt ℚ 1, p 0 = 1 / 5 → ∀ a, |toBundleIndex g.r (g.toMap p) a| ≤ 10) :
    ∃ st, gridRun g true fieldExp (expandedHistory [.insert id [fun _ => 1 / 5]] []) ((Kind.dynamic 0 0).init (Multiset (Pt ℚ 1))) = some st := by
  refine dynamic_run_total g fieldExp 0 0 10 _ _ (Kind.init_rinv (.dynamic 0 0)) (.refl ..) ?_ 10 (le_refl _) ?_ (by decide)
  · intro op hop
    rcases List.mem_cons.1 hop with rfl | hop
    · intro q hq a
      unfold accList at hq
      obtain ⟨p, hp, rfl⟩ := List.mem_map.1 (List.mem_filter.1 hq).1
      have hp := (List.mem_filter.1 hp).1
      simp only [List.map_cons, List.map_nil, id_eq, List.mem_singleton] at hp
      exact h p (by rw [hp]) a
    · rw [List.mem_singleton.1 hop]; trivial
  · intro bi hbi; rw [Kind.init_allocated] at hbi; exact absurd hbi (Set.notMem_empty _)

/-- Non-vacuity: both maps run through the history, can be sampled, and the point lies in bundle 0 of the one and in bundle 3 of the other. -/
example : ∃ st st' x x', gridRun fieldGeo true fieldExp (expandedHistory [.insert id [fun _ => 1 / 5]] []) ((Kind.dynamic 0 0).init _) = some st ∧
    gridRun fieldGeo3 true fieldExp (expandedHistory [.insert id [fun _ => 1 / 5]] []) ((Kind.dynamic 0 0).init _) = some st' ∧
    (∀ s q, fieldExp s = false → squareDens s q = 0) ∧ (∀ v s q, squareDens (s.map (Spec.translate v)) (Spec.translate v q) = squareDens s q) ∧
    (∀ a : Fin 1, (fun _ => 3 / 2 : Pt ℚ 1) a = fieldGeo.r / 2 * ((fun _ => 3 : Idx 1) a : ℚ)) ∧
    sampleNNAt fieldGeo true squareDens (fun _ => 3 / 5) st = some x ∧ sampleNNAt fieldGeo3 true squareDens (fun _ => 3 / 5) st' = some x' ∧
    toBundleIndex fieldGeo.r (fieldGeo.toMap fun _ => 1 / 5) = (fun _ => 0) ∧ toBundleIndex fieldGeo3.r (fieldGeo3.toMap fun _ => 1 / 5) = (fun _ => 3) := by
  have e0 : toBundleIndex fieldGeo.r (fieldGeo.toMap fun _ => 1 / 5) = (fun _ => 0) := by decide +kernel
  have e3 : toBundleIndex fieldGeo3.r (fieldGeo3.toMap fun _ => 1 / 5) = (fun _ => 3) := by decide +kernel
  obtain ⟨st, h⟩ := field_dynamic_runs fieldGeo (by
    intro p hp a
    rw [show p = fun _ => 1 / 5 from funext fun b => by rw [Subsingleton.elim b 0]; exact hp, e0]; norm_num)
  obtain ⟨st', h'⟩ := field_dynamic_runs fieldGeo3 (by
    intro p hp a
    rw [show p = fun _ => 1 / 5 from funext fun b => by rw [Subsingleton.elim b 0]; exact hp, e3]; norm_num)
  obtain ⟨x, hx⟩ := (C24_dynamic_total 0 0 fieldGeo fieldExp _ st h squareDens (fun _ => 3 / 5) (by decide +kernel)).1
  obtain ⟨x', hx'⟩ := (C24_dynamic_total 0 0 fieldGeo3 fieldExp _ st' h' squareDens (fun _ => 3 / 5) (by decide +kernel)).1
  refine ⟨st, st', x, x', h, h', ?_, ?_, ?_, hx, hx', e0, e3⟩
  · intro s q hs
    have : s = 0 := by simpa [fieldExp] using hs
    rw [this]; rfl
  · intro v s q
    unfold squareDens
    rw [Multiset.map_map]
    congr 1
    refine Multiset.map_congr rfl fun a _ => ?_
    simp [Spec.translate]
  · intro a; norm_num [fieldGeo]

end Ndt
