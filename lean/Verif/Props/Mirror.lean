import Verif.Spec.Mirror
import Verif.Props.Axes
import Verif.Props.ScanOrder

/-!
Property theorems C110: mirror images and rotations by right angles.
-/

namespace Ndt
open St Spec

section
variable {K : Type} {d : Nat} [Field K]

theorem mirror_mirror (M : Fin d → Bool) (p : Pt K d) : mirror M (mirror M p) = p := by
  funext a
  unfold mirror
  split <;> simp_all

theorem mirrorMap_apply (M : Fin d → Bool) (f : Pt K d → Pt K d) (p : Pt K d) : mirrorMap M f (mirror M p) = mirror M (f p) := by
  unfold mirrorMap
  rw [mirror_mirror]

theorem mirror_zero (M : Fin d → Bool) : mirror M (0 : Pt K d) = 0 := by
  funext a
  unfold mirror
  split <;> simp

omit [Field K] in
theorem mirrorCell_mirrorCell (M : Fin d → Bool) (c : Nat) (i : Idx d) : mirrorCell M c (mirrorCell M c i) = i := by
  funext a
  unfold mirrorCell
  split
  · split <;> omega
  · rfl

theorem mirrorBundle_mirrorBundle (M : Fin d → Bool) (b : Idx d) : mirrorBundle M (mirrorBundle M b) = b := by
  funext a
  unfold mirrorBundle
  split
  · omega
  · rfl

theorem mirrorBundle_injective (M : Fin d → Bool) : Function.Injective (mirrorBundle (d := d) M) := fun p q h => by
  rw [← mirrorBundle_mirrorBundle M p, h, mirrorBundle_mirrorBundle]

variable [LinearOrder K] [IsStrictOrderedRing K]

omit [LinearOrder K] [IsStrictOrderedRing K] in
theorem offBorders_mirror {r : K} {p : Pt K d} (h : OffBorders r p) (M : Fin d → Bool) : OffBorders r (mirror M p) := by
  intro a n
  unfold Spec.mirror
  split
  · intro e
    exact h a (-n) (by push_cast; linear_combination -e)
  · exact h a n

/-- a half-open interval between borders, and its mirror image -/
theorem half_open_mirror {r x : K} (hx : ∀ n : Int, x ≠ n * (r / 2)) (m n : Int) : ((m : K) * (r / 2) ≤ x ∧ x < (n : K) * (r / 2)) ↔ (((-n : Int) : K) * (r / 2) ≤ -x ∧ -x < ((-m : Int) : K) * (r / 2)) := by
  have h1 := hx m
  have h2 := hx n
  push_cast
  constructor
  · rintro ⟨a, b⟩
    exact ⟨by linarith, by have := lt_of_le_of_ne a (Ne.symm h1); linarith⟩
  · rintro ⟨a, b⟩
    exact ⟨by linarith, lt_of_le_of_ne (by linarith) h2⟩

theorem inCell_mirror (M : Fin d → Bool) (r : K) (c : Nat) (i : Idx d) (p : Pt K d) (hp : OffBorders r p) : InCell r c (mirrorCell M c i) (mirror M p) ↔ InCell r c i p := by
  unfold InCell
  refine forall_congr' fun a => ?_
  by_cases hM : M a = true
  · have e1 : ((i a : K) - shift K c a.1) * r = ((2 * i a - (if c.testBit a.1 then 1 else 0) : Int) : K) * (r / 2) := by
      unfold shift; split <;> (push_cast; ring)
    have e2 : ((i a : K) + 1 - shift K c a.1) * r = ((2 * i a + 2 - (if c.testBit a.1 then 1 else 0) : Int) : K) * (r / 2) := by
      unfold shift; split <;> (push_cast; ring)
    have e3 : ((mirrorCell M c i a : K) - shift K c a.1) * r = ((-(2 * i a + 2 - (if c.testBit a.1 then 1 else 0)) : Int) : K) * (r / 2) := by
      unfold shift mirrorCell; rw [if_pos hM]; split <;> (push_cast; ring)
    have e4 : ((mirrorCell M c i a : K) + 1 - shift K c a.1) * r = ((-(2 * i a - (if c.testBit a.1 then 1 else 0)) : Int) : K) * (r / 2) := by
      unfold shift mirrorCell; rw [if_pos hM]; split <;> (push_cast; ring)
    rw [e1, e2, e3, e4, show mirror M p a = -p a by unfold mirror; rw [if_pos hM]]
    exact (half_open_mirror (hp a) _ _).symm
  · rw [show mirror M p a = p a by unfold mirror; rw [if_neg hM], show mirrorCell M c i a = i a by unfold mirrorCell; rw [if_neg hM]]

theorem inBundle_mirror (M : Fin d → Bool) (r : K) (b : Idx d) (p : Pt K d) (hp : OffBorders r p) : InBundle r (mirrorBundle M b) (mirror M p) ↔ InBundle r b p := by
  unfold InBundle
  refine forall_congr' fun a => ?_
  by_cases hM : M a = true
  · have e2 : ((b a : K) + 1) * (r / 2) = ((b a + 1 : Int) : K) * (r / 2) := by push_cast; ring
    have e3 : ((mirrorBundle M b a : Int) : K) * (r / 2) = ((-(b a + 1) : Int) : K) * (r / 2) := by
      unfold mirrorBundle; rw [if_pos hM]; push_cast; ring
    have e4 : ((mirrorBundle M b a : K) + 1) * (r / 2) = ((-b a : Int) : K) * (r / 2) := by
      unfold mirrorBundle; rw [if_pos hM]; push_cast; ring
    rw [e2, e3, e4, show mirror M p a = -p a by unfold mirror; rw [if_pos hM]]
    exact (half_open_mirror (hp a) _ _).symm
  · rw [show mirror M p a = p a by unfold mirror; rw [if_neg hM], show mirrorBundle M b a = b a by unfold mirrorBundle; rw [if_neg hM]]

theorem hat_mirror (M : Fin d → Bool) (r : K) (c : Nat) (i : Idx d) (p : Pt K d) : hat r c (mirrorCell M c i) (mirror M p) = hat r c i p := by
  unfold hat
  refine Finset.prod_congr rfl fun a _ => ?_
  by_cases hM : M a = true
  · have : mirror M p a - centre r c (mirrorCell M c i) a = -(p a - centre r c i a) := by
      unfold mirror centre shift mirrorCell
      rw [if_pos hM, if_pos hM]
      split <;> (push_cast; ring)
    rw [this, abs_neg]
  · rw [show mirror M p a = p a by unfold mirror; rw [if_neg hM], show centre r c (mirrorCell M c i) a = centre r c i a by unfold centre mirrorCell; rw [if_neg hM]]

theorem region_mirror (M : Fin d → Bool) (r : K) (k : Kind d) (p : Pt K d) (hp : OffBorders r p) : Region r (mirrorKind M k) (mirror M p) ↔ Region r k p := by
  cases k with
  | dynamic _ _ => exact Iff.rfl
  | static size lo =>
    show (∀ a, _) ↔ ∀ a, _
    refine forall_congr' fun a => ?_
    by_cases hM : M a = true
    · have e2 : ((lo a : K) + 2 * (size a : K) - 1) * (r / 2) = ((lo a + 2 * (size a : Int) - 1 : Int) : K) * (r / 2) := by push_cast; ring
      have e3 : (((if M a = true then -lo a - 2 * (size a : Int) + 1 else lo a : Int) : K)) * (r / 2) = ((-(lo a + 2 * (size a : Int) - 1) : Int) : K) * (r / 2) := by
        rw [if_pos hM]; push_cast; ring
      have e4 : ((((if M a = true then -lo a - 2 * (size a : Int) + 1 else lo a : Int) : K)) + 2 * (size a : K) - 1) * (r / 2) = ((-lo a : Int) : K) * (r / 2) := by
        rw [if_pos hM]; push_cast; ring
      rw [e2, e3, e4, show mirror M p a = -p a by unfold mirror; rw [if_pos hM]]
      exact (half_open_mirror (hp a) _ _).symm
    · rw [show mirror M p a = p a by unfold mirror; rw [if_neg hM]]
      simp only [if_neg hM]

theorem validBundle_mirror (M : Fin d → Bool) (k : Kind d) (b : Idx d) : ValidBundle (mirrorKind M k) (mirrorBundle M b) ↔ ValidBundle k b := by
  cases k with
  | dynamic _ _ => exact Iff.rfl
  | static size lo =>
    show (∀ a, _) ↔ ∀ a, _
    refine forall_congr' fun a => ?_
    unfold mirrorBundle
    by_cases hM : M a = true
    · simp only [if_pos hM]; omega
    · simp only [if_neg hM]

theorem acceptedPoints_mirror (M : Fin d → Bool) (g : Geo K d) (k : Kind d) (pose : Pt K d → Pt K d) (cloud : List (Pt K d)) (hoff : ∀ p ∈ cloud, OffBorders g.r (g.toMap (pose p))) :
    acceptedPoints (mirrorGeo M g) (mirrorKind M k) (mirrorMap M pose) (cloud.map (mirror M)) = (acceptedPoints g k pose cloud).map (mirror M) := by
  classical
  have e : (((cloud.map (mirror M)).map (mirrorMap M pose)).filter fun p => (mirrorGeo M g).normal p).map (mirrorGeo M g).toMap =
      (((cloud.map pose).filter fun p => g.normal p).map g.toMap).map (mirror M) := by
    have e1 : (cloud.map (mirror M)).map (mirrorMap M pose) = (cloud.map pose).map (mirror M) := by
      rw [List.map_map, List.map_map]
      exact List.map_congr_left fun p _ => mirrorMap_apply M pose p
    rw [e1, List.filter_map, List.map_map, List.map_map]
    have e2 : (fun p => (mirrorGeo M g).normal p) ∘ mirror M = fun p => g.normal p := by
      funext p
      show g.normal (mirror M (mirror M p)) = _
      rw [mirror_mirror]
    rw [e2]
    exact List.map_congr_left fun p _ => mirrorMap_apply M g.toMap p
  unfold acceptedPoints
  rw [e, ← Multiset.map_coe, Multiset.filter_map]
  refine congrArg _ (Multiset.filter_congr fun p hp => region_mirror M g.r k p ?_)
  rw [Multiset.mem_coe, List.mem_map] at hp
  obtain ⟨q, hq, rfl⟩ := hp
  obtain ⟨q', hq', rfl⟩ := List.mem_map.1 (List.mem_filter.1 hq).1
  exact hoff q' hq'

theorem acceptedPoints_off (g : Geo K d) (k : Kind d) (pose : Pt K d → Pt K d) (cloud : List (Pt K d)) (hoff : ∀ p ∈ cloud, OffBorders g.r (g.toMap (pose p))) : ∀ p ∈ acceptedPoints g k pose cloud, OffBorders g.r p := by
  classical
  intro p hp
  have hp := (Multiset.mem_filter.1 hp).1
  rw [Multiset.mem_coe, List.mem_map] at hp
  obtain ⟨q, hq, rfl⟩ := hp
  obtain ⟨q', hq', rfl⟩ := List.mem_map.1 (List.mem_filter.1 hq).1
  exact hoff q' hq'

theorem accepted_mirror (M : Fin d → Bool) (g : Geo K d) (k : Kind d) {ops ops' : List (GridOp K d)} (h : List.Forall₂ (MirroredOp M g) ops ops') :
    accepted (mirrorGeo M g) (mirrorKind M k) ops' = (accepted g k ops).map (mirror M) ∧ ∀ p ∈ accepted g k ops, OffBorders g.r p := by
  induction h with
  | nil => exact ⟨rfl, fun p hp => absurd hp (Multiset.notMem_zero p)⟩
  | cons ho _ ih =>
    obtain ⟨i1, i2⟩ := ih
    cases ho with
    | core _ _ => exact ⟨i1, i2⟩
    | insert pose cloud hoff =>
      constructor
      · show acceptedPoints _ _ _ _ + accepted _ _ _ = (acceptedPoints _ _ _ _ + accepted _ _ _).map _
        rw [i1, acceptedPoints_mirror M g k pose cloud hoff, Multiset.map_add]
      · intro p hp
        rcases Multiset.mem_add.1 hp with hp | hp
        · exact acceptedPoints_off g k pose cloud hoff p hp
        · exact i2 p hp

variable [FloorRing K]

theorem bundleInCell_mirror (M : Fin d → Bool) {r : K} (hr : 0 < r) (b : Idx d) (c : Nat) (i : Idx d) : BundleInCell r (mirrorBundle M b) c (mirrorCell M c i) ↔ BundleInCell r b c i := by
  rw [bundleInCell_iff hr, bundleInCell_iff hr]
  have key : ∀ a, generateIndex (mirrorBundle M b) c a = mirrorCell M c (generateIndex b c) a := by
    intro a
    have h1 := (getIndexInner_eq_iff (mirrorBundle M b a) (generateIndex (mirrorBundle M b) c a) c a.1).1 rfl
    have h2 := (getIndexInner_eq_iff (b a) (generateIndex b c a) c a.1).1 rfl
    have h3 : mirrorBundle M b a = if M a then -b a - 1 else b a := rfl
    unfold mirrorCell
    rw [h3] at h1
    by_cases hM : M a = true
    · simp only [if_pos hM] at h1 ⊢
      by_cases hb : c.testBit a.1 = true
      · simp only [hb, if_true] at h1 h2 ⊢; omega
      · simp only [hb] at h1 h2 ⊢; simp at h1 h2 ⊢; omega
    · simp only [if_neg hM] at h1 ⊢
      by_cases hb : c.testBit a.1 = true
      · simp only [hb, if_true] at h1 h2 ⊢; omega
      · simp only [hb] at h1 h2 ⊢; simp at h1 h2 ⊢; omega
  rw [show generateIndex (mirrorBundle M b) c = mirrorCell M c (generateIndex b c) from funext key]
  exact ⟨fun h => by rw [← mirrorCell_mirrorCell M c (generateIndex b c), h, mirrorCell_mirrorCell], fun h => by rw [h]⟩

theorem cellMates_mirror (M : Fin d → Bool) {r : K} (acc : Multiset (Pt K d)) (hacc : ∀ p ∈ acc, OffBorders r p) (c : Nat) (q : Pt K d) (hq : OffBorders r q) :
    cellMates r (acc.map (mirror M)) c (mirror M q) = (cellMates r acc c q).map (mirror M) := by
  classical
  unfold cellMates
  rw [Multiset.filter_map]
  refine congrArg _ (Multiset.filter_congr fun a ha => ?_)
  constructor
  · rintro ⟨i, h1, h2⟩
    rw [← mirrorCell_mirrorCell M c i] at h1 h2
    exact ⟨_, (inCell_mirror M r c _ q hq).1 h1, (inCell_mirror M r c _ a (hacc a ha)).1 h2⟩
  · rintro ⟨i, h1, h2⟩
    exact ⟨mirrorCell M c i, (inCell_mirror M r c i q hq).2 h1, (inCell_mirror M r c i a (hacc a ha)).2 h2⟩

/-- **C110** (contents of NDT maps). Give one map a history of insertions, lookups and allocations, and another one the mirror image of everything: region, origin, poses and clouds. If no inserted point lies on a border of a bundle, then the
mirror image of every cell holds the mirror images of the points of the cell. -/
theorem C110_contents (M : Fin d → Bool) (k : Kind d) (g : Geo K d) (hr : 0 < g.r) (exp exp' : Multiset (Pt K d) → Bool) (ops ops' : List (GridOp K d)) (hops : List.Forall₂ (MirroredOp M g) ops ops')
    (st : St k.backend (Multiset (Pt K d))) (h : gridRun g k.dyn exp ops (k.init _) = some st)
    (st' : St (mirrorKind M k).backend (Multiset (Pt K d))) (h' : gridRun (mirrorGeo M g) (mirrorKind M k).dyn exp' ops' ((mirrorKind M k).init _) = some st')
    (c : Nat) (hc : c < 2 ^ d) (i : Idx d) :
    (st'.content c (mirrorCell M c i)).getD 0 = ((st.content c i).getD 0).map (mirror M) := by
  classical
  obtain ⟨a1, a2⟩ := accepted_mirror M g k hops
  rw [C10_contents_exact k g hr exp ops st h c hc i, C10_contents_exact (mirrorKind M k) (mirrorGeo M g) hr exp' ops' st' h' _ hc, a1, Multiset.filter_map]
  exact congrArg _ (Multiset.filter_congr fun p hp => inCell_mirror M g.r c i p (a2 p hp))

/-- **C110** (samples of NDT maps). If the density does not distinguish the directions of the axes, then after neighbourhood allocation, possibly followed by lookups and further allocations, both maps have the same samples at points that are
mirror images of each other and lie on no borders. -/
theorem C110_samples (M : Fin d → Bool) (k : Kind d) (g : Geo K d) (hr : 0 < g.r) (exp : Multiset (Pt K d) → Bool) (hexp : exp 0 = false) (ops ops' : List (GridOp K d))
    (hops : List.Forall₂ (MirroredOp M g) ops ops') (more more' : List (CoreOp d))
    (st : St k.backend (Multiset (Pt K d))) (h : gridRun g k.dyn exp (expandedHistory ops more) (k.init _) = some st)
    (st' : St (mirrorKind M k).backend (Multiset (Pt K d))) (h' : gridRun (mirrorGeo M g) (mirrorKind M k).dyn exp (expandedHistory ops' more') ((mirrorKind M k).init _) = some st')
    (dens : Multiset (Pt K d) → Pt K d → K) (hd : ∀ s q, exp s = false → dens s q = 0) (hdM : ∀ s q, dens (s.map (mirror M)) (mirror M q) = dens s q)
    (p : Pt K d) (hp : Region g.r k (g.toMap p)) (hoff : OffBorders g.r (g.toMap p)) (x x' : K) :
    (sampleNNAt g k.dyn dens p st = some x → sampleNNAt (mirrorGeo M g) (mirrorKind M k).dyn dens (mirror M p) st' = some x' → x' = x) ∧
    (sampleBilinearAt g k.dyn dens p st = some x → sampleBilinearAt (mirrorGeo M g) (mirrorKind M k).dyn dens (mirror M p) st' = some x' → x' = x) := by
  obtain ⟨e1, e2⟩ := accepted_mirror M g k hops
  have hq : (mirrorGeo M g).toMap (mirror M p) = mirror M (g.toMap p) := mirrorMap_apply M g.toMap p
  have hp' : Region (mirrorGeo M g).r (mirrorKind M k) ((mirrorGeo M g).toMap (mirror M p)) := by rw [hq]; exact (region_mirror M g.r k _ hoff).2 hp
  obtain ⟨a1, a2⟩ := C90_field_of_points k g hr exp hexp ops more st h dens hd p hp x
  obtain ⟨b1, b2⟩ := C90_field_of_points (mirrorKind M k) (mirrorGeo M g) hr exp hexp ops' more' st' h' dens hd (mirror M p) hp' x'
  rw [e1, hq] at b1 b2
  have key : ∀ c, dens (cellMates g.r ((accepted g k ops).map (mirror M)) c (mirror M (g.toMap p))) (mirror M (g.toMap p)) =
      dens (cellMates g.r (accepted g k ops) c (g.toMap p)) (g.toMap p) := by
    intro c
    rw [cellMates_mirror M _ e2 c _ hoff, hdM]
  constructor
  · intro hx hx'
    rw [a1 hx, b1 hx']
    exact congrArg (· / _) (Finset.sum_congr rfl fun c _ => key c)
  · intro hx hx'
    have hi : ∀ c, InCell g.r c (generateIndex (toBundleIndex g.r (g.toMap p)) c) (g.toMap p) := fun c => (C01_point_in_selected_cell hr _ c _).1 rfl
    have hi' : ∀ c, InCell g.r c (generateIndex (toBundleIndex g.r (mirror M (g.toMap p))) c) (mirror M (g.toMap p)) := fun c => (C01_point_in_selected_cell hr _ c _).1 rfl
    rw [a2 hx _ hi, b2 hx' _ hi']
    refine Finset.sum_congr rfl fun c _ => ?_
    rw [show (mirrorGeo M g).r = g.r from rfl, key c, cell_index hr _ _ _ ((inCell_mirror M g.r c _ _ hoff).2 (hi c)), hat_mirror]

/-! ### rotations by right angles -/

omit [LinearOrder K] [IsStrictOrderedRing K] [FloorRing K] in
theorem offBorders_permute {r : K} {p : Pt K d} (h : OffBorders r p) (σ : Equiv.Perm (Fin d)) : OffBorders r (permute σ p) := fun a n => h (σ a) n

omit [LinearOrder K] [IsStrictOrderedRing K] [FloorRing K] in
theorem turnedOps (σ : Equiv.Perm (Fin d)) (M : Fin d → Bool) (g : Geo K d) {ops ops' : List (GridOp K d)} (h : List.Forall₂ (TurnedOp σ M g) ops ops') :
    ∃ mid, List.Forall₂ (PermutedOp σ) ops mid ∧ List.Forall₂ (MirroredOp M (permuteGeo σ g)) mid ops' := by
  induction h with
  | nil => exact ⟨[], .nil, .nil⟩
  | cons ho _ ih =>
    obtain ⟨mid, h1, h2⟩ := ih
    cases ho with
    | core op op' => exact ⟨_, .cons (.core op op) h1, .cons (.core op op') h2⟩
    | insert pose cloud hoff =>
      refine ⟨_, .cons (.insert pose cloud) h1, .cons ?_ h2⟩
      have : cloud.map (rightTurn σ M) = (cloud.map (permute σ)).map (mirror M) := by rw [List.map_map]; rfl
      rw [this]
      refine .insert _ _ fun p hp => ?_
      obtain ⟨q, hq, rfl⟩ := List.mem_map.1 hp
      rw [permuteMap_apply]
      show OffBorders g.r (permuteMap σ g.toMap (permute σ (pose q)))
      rw [permuteMap_apply]
      exact offBorders_permute (hoff q hq) σ

theorem accepted_turn (σ : Equiv.Perm (Fin d)) (M : Fin d → Bool) (g : Geo K d) (k : Kind d) {ops ops' : List (GridOp K d)} (h : List.Forall₂ (TurnedOp σ M g) ops ops') :
    accepted (turnGeo σ M g) (turnKind σ M k) ops' = (accepted g k ops).map (rightTurn σ M) ∧ ∀ p ∈ accepted g k ops, OffBorders g.r p := by
  obtain ⟨mid, h1, h2⟩ := turnedOps σ M g h
  obtain ⟨a1, a2⟩ := accepted_mirror M (permuteGeo σ g) (permuteKind σ k) h2
  rw [accepted_permute σ g k h1] at a1 a2
  refine ⟨by rw [Multiset.map_map] at a1; exact a1, fun p hp => ?_⟩
  have := offBorders_permute (a2 _ (Multiset.mem_map_of_mem _ hp)) σ.symm
  rwa [permute_symm] at this

/-- **C110** (rotations by right angles, contents). The same when the coordinates are given in another order and some of them with the other sign: rotations by multiples of 90° about the axes are of this kind. -/
theorem C110_turn_contents (σ : Equiv.Perm (Fin d)) (M : Fin d → Bool) (k : Kind d) (g : Geo K d) (hr : 0 < g.r) (exp exp' : Multiset (Pt K d) → Bool) (ops ops' : List (GridOp K d)) (hops : List.Forall₂ (TurnedOp σ M g) ops ops')
    (st : St k.backend (Multiset (Pt K d))) (h : gridRun g k.dyn exp ops (k.init _) = some st)
    (st' : St (turnKind σ M k).backend (Multiset (Pt K d))) (h' : gridRun (turnGeo σ M g) (turnKind σ M k).dyn exp' ops' ((turnKind σ M k).init _) = some st')
    (c : Nat) (hc : c < 2 ^ d) (i : Idx d) :
    (st'.content (permuteGrid σ c) (turnCell σ M c i)).getD 0 = ((st.content c i).getD 0).map (rightTurn σ M) := by
  classical
  obtain ⟨a1, a2⟩ := accepted_turn σ M g k hops
  rw [C10_contents_exact k g hr exp ops st h c hc i, C10_contents_exact (turnKind σ M k) (turnGeo σ M g) hr exp' ops' st' h' _ (permuteGrid_lt σ c), a1, Multiset.filter_map]
  exact congrArg _ (Multiset.filter_congr fun p hp => (inCell_mirror M g.r _ _ _ (offBorders_permute (a2 p hp) σ)).trans (inCell_permute σ g.r c i p))

/-- **C110** (rotations by right angles, samples). -/
theorem C110_turn_samples (σ : Equiv.Perm (Fin d)) (M : Fin d → Bool) (k : Kind d) (g : Geo K d) (hr : 0 < g.r) (exp : Multiset (Pt K d) → Bool) (hexp : exp 0 = false) (ops ops' : List (GridOp K d))
    (hops : List.Forall₂ (TurnedOp σ M g) ops ops') (more more' : List (CoreOp d))
    (st : St k.backend (Multiset (Pt K d))) (h : gridRun g k.dyn exp (expandedHistory ops more) (k.init _) = some st)
    (st' : St (turnKind σ M k).backend (Multiset (Pt K d))) (h' : gridRun (turnGeo σ M g) (turnKind σ M k).dyn exp (expandedHistory ops' more') ((turnKind σ M k).init _) = some st')
    (dens : Multiset (Pt K d) → Pt K d → K) (hd : ∀ s q, exp s = false → dens s q = 0) (hdT : ∀ s q, dens (s.map (rightTurn σ M)) (rightTurn σ M q) = dens s q)
    (p : Pt K d) (hp : Region g.r k (g.toMap p)) (hoff : OffBorders g.r (g.toMap p)) (x x' : K) :
    (sampleNNAt g k.dyn dens p st = some x → sampleNNAt (turnGeo σ M g) (turnKind σ M k).dyn dens (rightTurn σ M p) st' = some x' → x' = x) ∧
    (sampleBilinearAt g k.dyn dens p st = some x → sampleBilinearAt (turnGeo σ M g) (turnKind σ M k).dyn dens (rightTurn σ M p) st' = some x' → x' = x) := by
  obtain ⟨e1, e2⟩ := accepted_turn σ M g k hops
  have hq : (turnGeo σ M g).toMap (rightTurn σ M p) = rightTurn σ M (g.toMap p) := by
    show mirrorMap M (permuteMap σ g.toMap) (mirror M (permute σ p)) = _
    rw [mirrorMap_apply, permuteMap_apply]
    rfl
  have hoff' : OffBorders g.r (permute σ (g.toMap p)) := offBorders_permute hoff σ
  have hp' : Region (turnGeo σ M g).r (turnKind σ M k) ((turnGeo σ M g).toMap (rightTurn σ M p)) := by
    rw [hq]
    exact (region_mirror M g.r _ _ hoff').2 ((region_permute σ g.r k _).2 hp)
  obtain ⟨a1, a2⟩ := C90_field_of_points k g hr exp hexp ops more st h dens hd p hp x
  obtain ⟨b1, b2⟩ := C90_field_of_points (turnKind σ M k) (turnGeo σ M g) hr exp hexp ops' more' st' h' dens hd (rightTurn σ M p) hp' x'
  rw [e1, hq] at b1 b2
  have em : (accepted g k ops).map (rightTurn σ M) = ((accepted g k ops).map (permute σ)).map (mirror M) := by rw [Multiset.map_map]; rfl
  have key : ∀ c, dens (cellMates g.r ((accepted g k ops).map (rightTurn σ M)) (permuteGrid σ c) (rightTurn σ M (g.toMap p))) (rightTurn σ M (g.toMap p)) =
      dens (cellMates g.r (accepted g k ops) c (g.toMap p)) (g.toMap p) := by
    intro c
    rw [em]
    show dens (cellMates g.r _ _ (mirror M (permute σ (g.toMap p)))) _ = _
    rw [cellMates_mirror M _ ?_ _ _ hoff', cellMates_permute, Multiset.map_map]
    · exact hdT _ _
    · intro q hq
      obtain ⟨q', hq', rfl⟩ := Multiset.mem_map.1 hq
      exact offBorders_permute (e2 q' hq') σ
  constructor
  · intro hx hx'
    rw [a1 hx, b1 hx', ← sum_permuteGrid σ]
    exact congrArg (· / _) (Finset.sum_congr rfl fun c _ => key c)
  · intro hx hx'
    have hi : ∀ c, InCell g.r c (generateIndex (toBundleIndex g.r (g.toMap p)) c) (g.toMap p) := fun c => (C01_point_in_selected_cell hr _ c _).1 rfl
    have hi' : ∀ c, InCell g.r c (generateIndex (toBundleIndex g.r (rightTurn σ M (g.toMap p))) c) (rightTurn σ M (g.toMap p)) := fun c => (C01_point_in_selected_cell hr _ c _).1 rfl
    rw [a2 hx _ hi, b2 hx' _ hi', ← sum_permuteGrid σ]
    refine Finset.sum_congr rfl fun c _ => ?_
    rw [show (turnGeo σ M g).r = g.r from rfl, key c]
    have hc : InCell g.r (permuteGrid σ c) (turnCell σ M c (generateIndex (toBundleIndex g.r (g.toMap p)) c)) (rightTurn σ M (g.toMap p)) := (inCell_mirror M g.r _ _ _ hoff').2 ((inCell_permute σ g.r c _ _).2 (hi c))
    rw [cell_index hr _ _ _ hc]
    show hat g.r _ (mirrorCell M _ _) (mirror M _) * _ = _
    rw [hat_mirror, hat_permute]

/-! ### occupancy maps -/
variable {W E : Type} [AddCommMonoid W]

theorem hits_mirror (M : Fin d → Bool) (g : Geo K d) (k : Kind d) {s s' : Scan K d W} (h : MirroredScan M g s s') :
    hits (mirrorGeo M g) (mirrorKind M k) s' = (hits g k s).map (mirror M) := by
  unfold hits
  rw [h.pose, h.cloud, List.filter_map, ← acceptedPoints_mirror M g k s.pose _ fun p hp => h.off p (List.mem_filter.1 hp).1]
  have e : (fun p => (mirrorGeo M g).normal p) ∘ mirror M = fun p => g.normal p := by
    funext p
    show g.normal (mirror M (mirror M p)) = _
    rw [mirror_mirror]
  rw [e]

theorem hits_off (M : Fin d → Bool) (g : Geo K d) (k : Kind d) {s s' : Scan K d W} (h : MirroredScan M g s s') : ∀ p ∈ hits g k s, OffBorders g.r p :=
  acceptedPoints_off g k s.pose _ fun p hp => h.off p (List.mem_filter.1 hp).1

theorem hitsIn_mirror (M : Fin d → Bool) (g : Geo K d) (k : Kind d) {s s' : Scan K d W} (h : MirroredScan M g s s') (b : Idx d) :
    hitsIn (mirrorGeo M g) (mirrorKind M k) s' (mirrorBundle M b) = (hitsIn g k s b).map (mirror M) := by
  classical
  unfold hitsIn
  rw [hits_mirror M g k h, Multiset.filter_map]
  exact congrArg _ (Multiset.filter_congr fun p hp => inBundle_mirror M g.r b p (hits_off M g k h p hp))

theorem hitBundles_mirror (M : Fin d → Bool) (g : Geo K d) (hr : 0 < g.r) (k : Kind d) {s s' : Scan K d W} (h : MirroredScan M g s s') :
    hitBundles (mirrorGeo M g) (mirrorKind M k) s' = (hitBundles g k s).image (mirrorBundle M) := by
  ext b
  rw [mem_hitBundles_iff (mirrorGeo M g) hr, Finset.mem_image]
  constructor
  · intro hb
    refine ⟨mirrorBundle M b, (mem_hitBundles_iff g hr k s _).2 fun e => hb ?_, mirrorBundle_mirrorBundle M b⟩
    rw [← mirrorBundle_mirrorBundle M b, hitsIn_mirror M g k h, e, Multiset.map_zero]
  · rintro ⟨b', hb', rfl⟩ e
    rw [hitsIn_mirror M g k h, Multiset.map_eq_zero] at e
    exact (mem_hitBundles_iff g hr k s b').1 hb' e

/-- the mean of points of a bundle on no borders lies on no border -/
theorem meanOf_off {r : K} (hr : 0 < r) (b : Idx d) (m : Multiset (Pt K d)) (hm : m ≠ 0) (hb : ∀ p ∈ m, InBundle r b p) (hoff : ∀ p ∈ m, OffBorders r p) : OffBorders r (meanOf m) := by
  intro a n e
  have hc : (0 : K) < m.card := Nat.cast_pos.2 (Multiset.card_pos.2 hm)
  have h1 : (m.map fun _ => (b a : K) * (r / 2)).sum < (m.map fun p => p a).sum :=
    Multiset.sum_lt_sum_of_nonempty hm fun p hp => lt_of_le_of_ne (hb p hp a).1 (Ne.symm (hoff p hp a (b a)))
  have h2 : (m.map fun p => p a).sum < (m.map fun _ => ((b a : K) + 1) * (r / 2)).sum :=
    Multiset.sum_lt_sum_of_nonempty hm fun p hp => (hb p hp a).2
  rw [Multiset.map_const', Multiset.sum_replicate, nsmul_eq_mul] at h1 h2
  unfold meanOf at e
  rw [div_eq_iff hc.ne'] at e
  rw [e] at h1 h2
  have h3 : (b a : K) * (r / 2) < n * (r / 2) := lt_of_mul_lt_mul_left (by linarith) hc.le
  have h4 : (n : K) * (r / 2) < ((b a : K) + 1) * (r / 2) := lt_of_mul_lt_mul_left (by linarith) hc.le
  have h5 : (b a : K) < n := lt_of_mul_lt_mul_right h3 (by positivity)
  have h6 : (n : K) < (b a : K) + 1 := lt_of_mul_lt_mul_right h4 (by positivity)
  have h5' : b a < n := by exact_mod_cast h5
  have h6' : n < b a + 1 := by exact_mod_cast h6
  omega

theorem rayOf_mirror (M : Fin d → Bool) (g : Geo K d) (hr : 0 < g.r) (k : Kind d) {s s' : Scan K d W} (h : MirroredScan M g s s') (b : Idx d) (hb : b ∈ hitBundles g k s) :
    rayOf (mirrorGeo M g) (mirrorKind M k) s' (mirrorBundle M b) = (rayOf g k s b).map (mirrorBundle M) := by
  classical
  unfold rayOf
  have hm : hitsIn g k s b ≠ 0 := (mem_hitBundles_iff g hr k s b).1 hb
  have hoff : OffBorders g.r (meanOf (hitsIn g k s b)) := meanOf_off hr b _ hm (fun p hp => (Multiset.mem_filter.1 hp).2) fun p hp => hits_off M g k h p (Multiset.mem_filter.1 hp).1
  rw [← h.ray _ _ h.origin hoff, hitsIn_mirror M g k h]
  congr 1
  · rw [h.pose, ← mirror_zero M, mirrorMap_apply, mirror_zero]
    exact mirrorMap_apply M g.toMap _
  · funext a
    unfold meanOf mirror
    rw [Multiset.map_map, Multiset.card_map]
    by_cases hM : M a = true
    · simp only [hM, if_true, Function.comp_def]
      rw [Multiset.sum_map_neg, neg_div]
    · simp only [hM, Function.comp_def]
      rfl

theorem misses_mirror (M : Fin d → Bool) (skip : Bool) (g : Geo K d) (hr : 0 < g.r) (k : Kind d) {s s' : Scan K d W} (h : MirroredScan M g s s') (c : Nat) (i : Idx d) :
    misses skip (mirrorGeo M g) (mirrorKind M k) s' c (mirrorCell M c i) = misses skip g k s c i := by
  unfold misses
  rw [hitBundles_mirror M g hr k h, Finset.sum_image fun a _ b _ e => mirrorBundle_injective M e]
  refine Finset.sum_congr rfl fun b hb => ?_
  rw [rayOf_mirror M g hr k h b hb, hitsIn_mirror M g k h, Multiset.card_map, List.filter_map, List.length_map]
  refine congrArg (fun l => List.length l * _) (List.filter_congr fun x _ => ?_)
  simp only [Function.comp]
  rw [decide_eq_decide]
  refine and_congr (validBundle_mirror M k x) (and_congr (bundleInCell_mirror M hr x c i) (imp_congr_right fun _ => not_congr ?_))
  rw [Finset.mem_image]
  exact ⟨fun ⟨y, hy, e⟩ => mirrorBundle_injective M e ▸ hy, fun hx => ⟨x, hx, rfl⟩⟩

omit [LinearOrder K] [IsStrictOrderedRing K] [FloorRing K] in
theorem scans_mirror (M : Fin d → Bool) (g : Geo K d) {ops ops' : List (OccMapOp K d W E)} (h : List.Forall₂ (MirroredOccOp M g) ops ops') :
    List.Forall₂ (MirroredScan M g) (scansOf ops) (scansOf ops') ∧ (∀ op ∈ ops, op.Plain) ∧ ∀ op ∈ ops', op.Plain := by
  induction h with
  | nil => exact ⟨.nil, by simp, by simp⟩
  | cons ho _ ih =>
    obtain ⟨i1, i2, i3⟩ := ih
    cases ho with
    | core op op' => exact ⟨i1, List.forall_mem_cons.2 ⟨trivial, i2⟩, List.forall_mem_cons.2 ⟨trivial, i3⟩⟩
    | insert s s' h => exact ⟨.cons h i1, List.forall_mem_cons.2 ⟨trivial, i2⟩, List.forall_mem_cons.2 ⟨trivial, i3⟩⟩

theorem hits_sum_mirror (M : Fin d → Bool) (g : Geo K d) (k : Kind d) {l l' : List (Scan K d W)} (h : List.Forall₂ (MirroredScan M g) l l') :
    (l'.map fun s => hits (mirrorGeo M g) (mirrorKind M k) s).sum = ((l.map fun s => hits g k s).sum).map (mirror M) ∧ ∀ p ∈ (l.map fun s => hits g k s).sum, OffBorders g.r p := by
  induction h with
  | nil => exact ⟨rfl, fun p hp => absurd hp (Multiset.notMem_zero p)⟩
  | cons h _ ih =>
    refine ⟨by rw [List.map_cons, List.map_cons, List.sum_cons, List.sum_cons, ih.1, hits_mirror M g k h, Multiset.map_add], fun p hp => ?_⟩
    rw [List.map_cons, List.sum_cons] at hp
    rcases Multiset.mem_add.1 hp with hp | hp
    · exact hits_off M g k h p hp
    · exact ih.2 p hp

theorem misses_sum_mirror (M : Fin d → Bool) (skip : Bool) (g : Geo K d) (hr : 0 < g.r) (k : Kind d) {l l' : List (Scan K d W)} (h : List.Forall₂ (MirroredScan M g) l l') (c : Nat) (i : Idx d) :
    (l'.map fun s => misses skip (mirrorGeo M g) (mirrorKind M k) s c (mirrorCell M c i)).sum = (l.map fun s => misses skip g k s c i).sum := by
  induction h with
  | nil => rfl
  | cons h _ ih => rw [List.map_cons, List.map_cons, List.sum_cons, List.sum_cons, ih, misses_mirror M skip g hr k h]

/-- **C110** (occupancy maps). The same for occupancy maps, if the scanner lies on no border and the line iterators treat both directions of the axes alike: a cell and its mirror image have mirrored hits, the same number of hits and the same
number of misses, hence the same occupancy. -/
theorem C110_occupancy_contents (M : Fin d → Bool) (k : Kind d) (g : Geo K d) (hr : 0 < g.r) (ray ray' : Pt K d → Pt K d → List (Idx d)) (exp exp' : Occ Nat (Pt K d) → Bool)
    (ops ops' : List (OccMapOp K d Nat (Pt K d))) (hops : List.Forall₂ (MirroredOccOp M g) ops ops')
    (st : St k.backend (Occ Nat (Pt K d))) (h : occRun (occFlavour K d) g k.dyn ray exp ops (k.init _) = some st)
    (st' : St (mirrorKind M k).backend (Occ Nat (Pt K d))) (h' : occRun (occFlavour K d) (mirrorGeo M g) (mirrorKind M k).dyn ray' exp' ops' ((mirrorKind M k).init _) = some st')
    (c : Nat) (hc : c < 2 ^ d) (i : Idx d) :
    ((st'.content c (mirrorCell M c i)).getD Occ.new).samples = ((st.content c i).getD Occ.new).samples.map (mirror M) ∧
    ((st'.content c (mirrorCell M c i)).getD Occ.new).numOccupied = ((st.content c i).getD Occ.new).numOccupied ∧
    ((st'.content c (mirrorCell M c i)).getD Occ.new).numFree = ((st.content c i).getD Occ.new).numFree := by
  classical
  obtain ⟨hs, hp, hp'⟩ := scans_mirror M g hops
  obtain ⟨a1, a2, a3⟩ := C27_occupancy_counts k g hr ray exp ops hp st h c hc i
  obtain ⟨b1, b2, b3⟩ := C27_occupancy_counts (mirrorKind M k) (mirrorGeo M g) hr ray' exp' ops' hp' st' h' c hc (mirrorCell M c i)
  have e : ((((scansOf ops').map fun s => hits (mirrorGeo M g) (mirrorKind M k) s).sum).filter (InCell (mirrorGeo M g).r c (mirrorCell M c i))) =
      ((((scansOf ops).map fun s => hits g k s).sum).filter (InCell g.r c i)).map (mirror M) := by
    rw [(hits_sum_mirror M g k hs).1, Multiset.filter_map]
    exact congrArg _ (Multiset.filter_congr fun p hp => inCell_mirror M g.r c i p ((hits_sum_mirror M g k hs).2 p hp))
  refine ⟨by rw [a2, b2, e], by rw [a3, b3, e, Multiset.card_map], by rw [a1, b1, misses_sum_mirror M false g hr k hs]⟩

/-- **C110** (weighted occupancy maps): as `C110_occupancy_contents`. -/
theorem C110_weighted_contents (M : Fin d → Bool) (k : Kind d) (g : Geo K d) (hr : 0 < g.r) (ray ray' : Pt K d → Pt K d → List (Idx d)) (exp exp' : Occ K (Pt K d × K) → Bool)
    (ops ops' : List (OccMapOp K d K (Pt K d × K))) (hops : List.Forall₂ (MirroredOccOp M g) ops ops')
    (st : St k.backend (Occ K (Pt K d × K))) (h : occRun (weightedFlavour K d) g k.dyn ray exp ops (k.init _) = some st)
    (st' : St (mirrorKind M k).backend (Occ K (Pt K d × K))) (h' : occRun (weightedFlavour K d) (mirrorGeo M g) (mirrorKind M k).dyn ray' exp' ops' ((mirrorKind M k).init _) = some st')
    (c : Nat) (hc : c < 2 ^ d) (i : Idx d) :
    ((st'.content c (mirrorCell M c i)).getD Occ.new).samples = ((st.content c i).getD Occ.new).samples.map (fun x => (mirror M x.1, x.2)) ∧
    ((st'.content c (mirrorCell M c i)).getD Occ.new).weightOccupied = ((st.content c i).getD Occ.new).weightOccupied ∧
    ((st'.content c (mirrorCell M c i)).getD Occ.new).numFree = ((st.content c i).getD Occ.new).numFree := by
  classical
  obtain ⟨hs, hp, hp'⟩ := scans_mirror M g hops
  obtain ⟨a1, a2, a3⟩ := C27_weighted_counts k g hr ray exp ops hp st h c hc i
  obtain ⟨b1, b2, b3⟩ := C27_weighted_counts (mirrorKind M k) (mirrorGeo M g) hr ray' exp' ops' hp' st' h' c hc (mirrorCell M c i)
  have e : ((((scansOf ops').map fun s => hits (mirrorGeo M g) (mirrorKind M k) s).sum).filter (InCell (mirrorGeo M g).r c (mirrorCell M c i))) =
      ((((scansOf ops).map fun s => hits g k s).sum).filter (InCell g.r c i)).map (mirror M) := by
    rw [(hits_sum_mirror M g k hs).1, Multiset.filter_map]
    exact congrArg _ (Multiset.filter_congr fun p hp => inCell_mirror M g.r c i p ((hits_sum_mirror M g k hs).2 p hp))
  refine ⟨?_, by rw [a3, b3, e, Multiset.card_map], by rw [a1, b1, misses_sum_mirror M true g hr k hs]⟩
  rw [a2, b2, e, Multiset.map_map, Multiset.map_map]
  rfl

/-! ### rotations by right angles, occupancy maps -/

omit [LinearOrder K] [IsStrictOrderedRing K] [FloorRing K] in
/-- a turned scan is the mirror image of a scan with permuted coordinates -/
theorem turnedScan_mid (σ : Equiv.Perm (Fin d)) (M : Fin d → Bool) (g : Geo K d) {s s' : Scan K d W} (h : TurnedScan σ M g s s') :
    ∃ m, PermutedScan σ s m ∧ MirroredScan M (permuteGeo σ g) m s' := by
  have hoff : ∀ q, OffBorders g.r (g.toMap (s.pose q)) → OffBorders (permuteGeo σ g).r ((permuteGeo σ g).toMap (permuteMap σ s.pose (permute σ q))) := by
    intro q hq
    rw [permuteMap_apply]
    show OffBorders g.r (permuteMap σ g.toMap (permute σ (s.pose q)))
    rw [permuteMap_apply]
    exact offBorders_permute hq σ
  refine ⟨{ pose := permuteMap σ s.pose, cloud := s.cloud.map (permute σ), ray := fun p q => (s.ray (permute σ.symm p) (permute σ.symm q)).map (permute σ), order := id, order_perm := fun l => .refl l },
    ⟨rfl, rfl, fun p q => ?_⟩, ⟨h.pose, ?_, fun p q hp hq => ?_, ?_, fun p hp => ?_⟩⟩
  · show (s.ray (permute σ.symm (permute σ p)) (permute σ.symm (permute σ q))).map _ = _
    rw [permute_symm, permute_symm]
  · rw [h.cloud, List.map_map]
    rfl
  · have := h.ray (permute σ.symm p) (permute σ.symm q) (offBorders_permute hp σ.symm) (offBorders_permute hq σ.symm)
    unfold rightTurn at this
    rw [permute_symm', permute_symm'] at this
    rw [this, List.map_map]
    rfl
  · exact hoff 0 h.origin
  · obtain ⟨q, hq, rfl⟩ := List.mem_map.1 hp
    exact hoff q (h.off q hq)

omit [LinearOrder K] [IsStrictOrderedRing K] [FloorRing K] in
theorem scans_turn (σ : Equiv.Perm (Fin d)) (M : Fin d → Bool) (g : Geo K d) {ops ops' : List (OccMapOp K d W E)} (h : List.Forall₂ (TurnedOccOp σ M g) ops ops') :
    ∃ mid, List.Forall₂ (PermutedScan σ) (scansOf ops) mid ∧ List.Forall₂ (MirroredScan M (permuteGeo σ g)) mid (scansOf ops') ∧ (∀ op ∈ ops, op.Plain) ∧ ∀ op ∈ ops', op.Plain := by
  induction h with
  | nil => exact ⟨[], .nil, .nil, by simp, by simp⟩
  | cons ho _ ih =>
    obtain ⟨mid, i0, i1, i2, i3⟩ := ih
    cases ho with
    | core op op' => exact ⟨mid, i0, i1, List.forall_mem_cons.2 ⟨trivial, i2⟩, List.forall_mem_cons.2 ⟨trivial, i3⟩⟩
    | insert s s' h =>
      obtain ⟨m, m1, m2⟩ := turnedScan_mid σ M g h
      exact ⟨m :: mid, .cons m1 i0, .cons m2 i1, List.forall_mem_cons.2 ⟨trivial, i2⟩, List.forall_mem_cons.2 ⟨trivial, i3⟩⟩

/-- **C110** (rotations by right angles, occupancy maps). The same in turned coordinates, if the scanner lies on no border and the line iterators treat the axes and their directions alike: corresponding cells have the turned hits, the same number
of hits and the same number of misses, hence the same occupancy. -/
theorem C110_turn_occupancy (σ : Equiv.Perm (Fin d)) (M : Fin d → Bool) (k : Kind d) (g : Geo K d) (hr : 0 < g.r) (ray ray' : Pt K d → Pt K d → List (Idx d)) (exp exp' : Occ Nat (Pt K d) → Bool)
    (ops ops' : List (OccMapOp K d Nat (Pt K d))) (hops : List.Forall₂ (TurnedOccOp σ M g) ops ops')
    (st : St k.backend (Occ Nat (Pt K d))) (h : occRun (occFlavour K d) g k.dyn ray exp ops (k.init _) = some st)
    (st' : St (turnKind σ M k).backend (Occ Nat (Pt K d))) (h' : occRun (occFlavour K d) (turnGeo σ M g) (turnKind σ M k).dyn ray' exp' ops' ((turnKind σ M k).init _) = some st')
    (c : Nat) (hc : c < 2 ^ d) (i : Idx d) :
    ((st'.content (permuteGrid σ c) (turnCell σ M c i)).getD Occ.new).samples = ((st.content c i).getD Occ.new).samples.map (rightTurn σ M) ∧
    ((st'.content (permuteGrid σ c) (turnCell σ M c i)).getD Occ.new).numOccupied = ((st.content c i).getD Occ.new).numOccupied ∧
    ((st'.content (permuteGrid σ c) (turnCell σ M c i)).getD Occ.new).numFree = ((st.content c i).getD Occ.new).numFree := by
  classical
  obtain ⟨mid, hs, hs', hp, hp'⟩ := scans_turn σ M g hops
  obtain ⟨a1, a2, a3⟩ := C27_occupancy_counts k g hr ray exp ops hp st h c hc i
  obtain ⟨b1, b2, b3⟩ := C27_occupancy_counts (turnKind σ M k) (turnGeo σ M g) hr ray' exp' ops' hp' st' h' (permuteGrid σ c) (permuteGrid_lt σ c) (turnCell σ M c i)
  obtain ⟨e0, e1⟩ := hits_sum_mirror M (permuteGeo σ g) (permuteKind σ k) hs'
  rw [hits_sum_permute σ g k hs] at e0 e1
  have e : ((((scansOf ops').map fun s => hits (turnGeo σ M g) (turnKind σ M k) s).sum).filter (InCell (turnGeo σ M g).r (permuteGrid σ c) (turnCell σ M c i))) =
      ((((scansOf ops).map fun s => hits g k s).sum).filter (InCell g.r c i)).map (rightTurn σ M) := by
    rw [show ((scansOf ops').map fun s => hits (turnGeo σ M g) (turnKind σ M k) s).sum = _ from e0, Multiset.map_map, Multiset.filter_map]
    exact congrArg _ (Multiset.filter_congr fun p hp => (inCell_mirror M g.r _ _ _ (e1 _ (Multiset.mem_map_of_mem _ hp))).trans (inCell_permute σ g.r c i p))
  have e2 : ((scansOf ops').map fun s => misses false (turnGeo σ M g) (turnKind σ M k) s (permuteGrid σ c) (turnCell σ M c i)).sum = ((scansOf ops).map fun s => misses false g k s c i).sum :=
    (misses_sum_mirror M false (permuteGeo σ g) hr (permuteKind σ k) hs' (permuteGrid σ c) (permute σ i)).trans (misses_sum_permute σ false g k hs c i)
  exact ⟨by rw [a2, b2, e], by rw [a3, b3, e, Multiset.card_map], by rw [a1, b1, e2]⟩

/-- **C110** (rotations by right angles, weighted occupancy maps): as `C110_turn_occupancy`. -/
theorem C110_turn_weighted (σ : Equiv.Perm (Fin d)) (M : Fin d → Bool) (k : Kind d) (g : Geo K d) (hr : 0 < g.r) (ray ray' : Pt K d → Pt K d → List (Idx d)) (exp exp' : Occ K (Pt K d × K) → Bool)
    (ops ops' : List (OccMapOp K d K (Pt K d × K))) (hops : List.Forall₂ (TurnedOccOp σ M g) ops ops')
    (st : St k.backend (Occ K (Pt K d × K))) (h : occRun (weightedFlavour K d) g k.dyn ray exp ops (k.init _) = some st)
    (st' : St (turnKind σ M k).backend (Occ K (Pt K d × K))) (h' : occRun (weightedFlavour K d) (turnGeo σ M g) (turnKind σ M k).dyn ray' exp' ops' ((turnKind σ M k).init _) = some st')
    (c : Nat) (hc : c < 2 ^ d) (i : Idx d) :
    ((st'.content (permuteGrid σ c) (turnCell σ M c i)).getD Occ.new).samples = ((st.content c i).getD Occ.new).samples.map (fun x => (rightTurn σ M x.1, x.2)) ∧
    ((st'.content (permuteGrid σ c) (turnCell σ M c i)).getD Occ.new).weightOccupied = ((st.content c i).getD Occ.new).weightOccupied ∧
    ((st'.content (permuteGrid σ c) (turnCell σ M c i)).getD Occ.new).numFree = ((st.content c i).getD Occ.new).numFree := by
  classical
  obtain ⟨mid, hs, hs', hp, hp'⟩ := scans_turn σ M g hops
  obtain ⟨a1, a2, a3⟩ := C27_weighted_counts k g hr ray exp ops hp st h c hc i
  obtain ⟨b1, b2, b3⟩ := C27_weighted_counts (turnKind σ M k) (turnGeo σ M g) hr ray' exp' ops' hp' st' h' (permuteGrid σ c) (permuteGrid_lt σ c) (turnCell σ M c i)
  obtain ⟨e0, e1⟩ := hits_sum_mirror M (permuteGeo σ g) (permuteKind σ k) hs'
  rw [hits_sum_permute σ g k hs] at e0 e1
  have e : ((((scansOf ops').map fun s => hits (turnGeo σ M g) (turnKind σ M k) s).sum).filter (InCell (turnGeo σ M g).r (permuteGrid σ c) (turnCell σ M c i))) =
      ((((scansOf ops).map fun s => hits g k s).sum).filter (InCell g.r c i)).map (rightTurn σ M) := by
    rw [show ((scansOf ops').map fun s => hits (turnGeo σ M g) (turnKind σ M k) s).sum = _ from e0, Multiset.map_map, Multiset.filter_map]
    exact congrArg _ (Multiset.filter_congr fun p hp => (inCell_mirror M g.r _ _ _ (e1 _ (Multiset.mem_map_of_mem _ hp))).trans (inCell_permute σ g.r c i p))
  have e2 : ((scansOf ops').map fun s => misses true (turnGeo σ M g) (turnKind σ M k) s (permuteGrid σ c) (turnCell σ M c i)).sum = ((scansOf ops).map fun s => misses true g k s c i).sum :=
    (misses_sum_mirror M true (permuteGeo σ g) hr (permuteKind σ k) hs' (permuteGrid σ c) (permute σ i)).trans (misses_sum_permute σ true g k hs c i)
  refine ⟨?_, by rw [a3, b3, e, Multiset.card_map], by rw [a1, b1, e2]⟩
  rw [a2, b2, e, Multiset.map_map, Multiset.map_map]
  rfl

end

/-- The density of the normal distribution with mean and covariance of the points of a distribution does not distinguish the directions of the axes, as `C110_samples` requires. -/
theorem C110_normal_density {d : Nat} (M : Fin d → Bool) (m : Multiset (Pt ℝ d)) (q : Pt ℝ d) : Spec.gaussOf (m.map (mirror M)) (mirror M q) = Spec.gaussOf m q := by
  let s : Fin d → ℝ := fun a => if M a then -1 else 1
  have hs : ∀ a, s a * s a = 1 := fun a => by dsimp only [s]; split <;> norm_num
  have hmir : ∀ p : Pt ℝ d, mirror M p = fun a => s a * p a := fun p => by
    funext a
    dsimp only [s, mirror]
    split <;> ring
  have hm : Spec.sampleMean (m.map (mirror M)) = mirror M (Spec.sampleMean m) := by
    rw [hmir]
    funext a
    simp only [Spec.sampleMean, Multiset.map_map, Multiset.card_map, Function.comp_def, hmir, Multiset.sum_map_mul_left, mul_div_assoc]
  have hc : Spec.sampleCov (m.map (mirror M)) = Matrix.diagonal s * Spec.sampleCov m * Matrix.diagonal s := by
    ext a b
    rw [Matrix.mul_diagonal, Matrix.diagonal_mul]
    simp only [Spec.sampleCov, hm, Multiset.map_map, Multiset.card_map, Function.comp_def]
    simp only [hmir]
    have : ∀ x : Pt ℝ d, (s a * x a - s a * Spec.sampleMean m a) * (s b * x b - s b * Spec.sampleMean m b) = s a * s b * ((x a - Spec.sampleMean m a) * (x b - Spec.sampleMean m b)) := fun x => by ring
    simp only [this, Multiset.sum_map_mul_left]
    ring
  have hd : Matrix.diagonal s * Matrix.diagonal s = 1 := by
    rw [Matrix.diagonal_mul_diagonal, ← Matrix.diagonal_one]
    exact congrArg _ (funext hs)
  have hinv : (Matrix.diagonal s)⁻¹ = Matrix.diagonal s := Matrix.inv_eq_right_inv hd
  have hi : ∀ a b, (Matrix.diagonal s * Spec.sampleCov m * Matrix.diagonal s)⁻¹ a b = s a * (Spec.sampleCov m)⁻¹ a b * s b := by
    intro a b
    rw [Matrix.mul_inv_rev, Matrix.mul_inv_rev, hinv, ← Matrix.mul_assoc, Matrix.mul_diagonal, Matrix.diagonal_mul]
  unfold Spec.gaussOf
  rw [hm, hc]
  congr 2
  refine Finset.sum_congr rfl fun a _ => Finset.sum_congr rfl fun b _ => ?_
  rw [hi, hmir, hmir]
  linear_combination ((q a - Spec.sampleMean m a) * (Spec.sampleCov m)⁻¹ a b * (q b - Spec.sampleMean m b)) * (s b * s b) * hs a + ((q a - Spec.sampleMean m a) * (Spec.sampleCov m)⁻¹ a b * (q b - Spec.sampleMean m b)) * hs b

/-- … nor the order and the directions of the axes, as `C110_turn_samples` requires. -/
theorem C110_turn_density {d : Nat} (σ : Equiv.Perm (Fin d)) (M : Fin d → Bool) (m : Multiset (Pt ℝ d)) (q : Pt ℝ d) : Spec.gaussOf (m.map (rightTurn σ M)) (rightTurn σ M q) = Spec.gaussOf m q := by
  have : m.map (rightTurn σ M) = (m.map (permute σ)).map (mirror M) := by rw [Multiset.map_map]; rfl
  rw [this]
  exact (C110_normal_density M _ _).trans (C106_normal_density σ m q)

/-! ### Concrete cases -/

/-- the points of `axesCloud` lie on no borders -/
theorem axesCloud_off : ∀ p ∈ axesCloud, OffBorders axesGeo.r (axesGeo.toMap (id p)) := by
  intro p hp a n h
  have hp : p = ![1 / 5, -1 / 5] ∨ p = ![3 / 5, -1 / 10] := by simpa [axesCloud] using hp
  have h : p a = n * (1 / 2) := h
  have h10 : 10 * p a = ((5 * n : Int) : ℚ) := by rw [h]; push_cast; ring
  rcases hp with rfl | rfl
  · fin_cases a
    · have : ((2 : Int) : ℚ) = ((5 * n : Int) : ℚ) := by rw [← h10]; norm_num
      have := Int.cast_injective this
      omega
    · have : ((-2 : Int) : ℚ) = ((5 * n : Int) : ℚ) := by rw [← h10]; norm_num
      have := Int.cast_injective this
      omega
  · fin_cases a
    · have : ((6 : Int) : ℚ) = ((5 * n : Int) : ℚ) := by rw [← h10]; norm_num
      have := Int.cast_injective this
      omega
    · have : ((-1 : Int) : ℚ) = ((5 * n : Int) : ℚ) := by rw [← h10]; norm_num
      have := Int.cast_injective this
      omega

/-- the first axis is mirrored; together with `axesSwap` this is the rotation by 90° -/
def mirrorX : Fin 2 → Bool := ![true, false]

def mirrorXN : Option (St (mirrorKind mirrorX axesKind).backend (Multiset (Pt ℚ 2))) :=
  gridRun (mirrorGeo mirrorX axesGeo) (mirrorKind mirrorX axesKind).dyn axesExp (expandedHistory [.insert (mirrorMap mirrorX id) (axesCloud.map (mirror mirrorX))] []) ((mirrorKind mirrorX axesKind).init _)
def turnN : Option (St (turnKind axesSwap mirrorX axesKind).backend (Multiset (Pt ℚ 2))) :=
  gridRun (turnGeo axesSwap mirrorX axesGeo) (turnKind axesSwap mirrorX axesKind).dyn axesExp (expandedHistory [.insert (turnMap axesSwap mirrorX id) (axesCloud.map (rightTurn axesSwap mirrorX))] []) ((turnKind axesSwap mirrorX axesKind).init _)
theorem mirrorXN_runs : mirrorXN.isSome = true := by decide +kernel
theorem turnN_runs : turnN.isSome = true := by decide +kernel

/-- Non-vacuity: a map, its mirror image and the map rotated by 90° run, the points lie on no borders, and the samples at corresponding points are equal and positive. -/
example : ∃ st st' st'', axesN = some st ∧ mirrorXN = some st' ∧ turnN = some st'' ∧
    List.Forall₂ (MirroredOp mirrorX axesGeo) [(.insert id axesCloud : GridOp ℚ 2)] [.insert (mirrorMap mirrorX id) (axesCloud.map (mirror mirrorX))] ∧
    List.Forall₂ (TurnedOp axesSwap mirrorX axesGeo) [(.insert id axesCloud : GridOp ℚ 2)] [.insert (turnMap axesSwap mirrorX id) (axesCloud.map (rightTurn axesSwap mirrorX))] ∧
    rightTurn axesSwap mirrorX ![1 / 5, -1 / 5] = (![1 / 5, 1 / 5] : Pt ℚ 2) ∧
    OffBorders axesGeo.r (axesGeo.toMap ![1 / 5, -1 / 5]) ∧ Region axesGeo.r axesKind (axesGeo.toMap ![1 / 5, -1 / 5]) ∧
    (∀ s q, axesDens (s.map (mirror mirrorX)) (mirror mirrorX q) = axesDens s q) ∧ (∀ s q, axesDens (s.map (rightTurn axesSwap mirrorX)) (rightTurn axesSwap mirrorX q) = axesDens s q) ∧
    sampleNNAt axesGeo axesKind.dyn axesDens ![1 / 5, -1 / 5] st = some (3 / 2) ∧
    sampleNNAt (mirrorGeo mirrorX axesGeo) (mirrorKind mirrorX axesKind).dyn axesDens (mirror mirrorX ![1 / 5, -1 / 5]) st' = some (3 / 2) ∧
    sampleNNAt (turnGeo axesSwap mirrorX axesGeo) (turnKind axesSwap mirrorX axesKind).dyn axesDens (rightTurn axesSwap mirrorX ![1 / 5, -1 / 5]) st'' = some (3 / 2) := by
  refine ⟨_, _, _, (Option.some_get axesN_runs).symm, (Option.some_get mirrorXN_runs).symm, (Option.some_get turnN_runs).symm, .cons (.insert _ _ axesCloud_off) .nil, .cons (.insert _ _ axesCloud_off) .nil,
    by decide +kernel, axesCloud_off _ (by simp [axesCloud]), ?_, ?_, ?_, by decide +kernel, by decide +kernel, by decide +kernel⟩
  · refine (valid_iff_region (Multiset (Pt ℚ 2)) axesGeo.r (by decide) axesKind _).1 ?_
    decide +kernel
  · intro s q
    unfold axesDens
    rw [Multiset.card_map]
  · intro s q
    unfold axesDens
    rw [Multiset.card_map]

/-- a scan whose scanner stands at the first point -/
def offScan (W : Type) : Scan ℚ 2 W :=
  { pose := fun p => p + ![1 / 5, -1 / 5], cloud := [![0, 0], ![2 / 5, 1 / 10]], ray := fun _ _ => [![0, -1]], order := id, order_perm := fun l => List.Perm.refl l }
def offScan' (W : Type) : Scan ℚ 2 W :=
  { pose := mirrorMap mirrorX (fun p => p + ![1 / 5, -1 / 5]), cloud := [![0, 0], ![2 / 5, 1 / 10]].map (mirror mirrorX), ray := fun _ _ => [![-1, -1]], order := List.reverse, order_perm := fun l => List.reverse_perm l }
def mirrorO : Option (St axesKind.backend (Occ Nat (Pt ℚ 2))) := occRun (occFlavour ℚ 2) axesGeo axesKind.dyn (fun _ _ => []) (fun _ => false) [.insert (offScan Nat)] (axesKind.init _)
def mirrorO' : Option (St (mirrorKind mirrorX axesKind).backend (Occ Nat (Pt ℚ 2))) :=
  occRun (occFlavour ℚ 2) (mirrorGeo mirrorX axesGeo) (mirrorKind mirrorX axesKind).dyn (fun _ _ => []) (fun _ => false) [.insert (offScan' Nat)] ((mirrorKind mirrorX axesKind).init _)
theorem mirrorO_runs : mirrorO.isSome = true := by decide +kernel
theorem mirrorO'_runs : mirrorO'.isSome = true := by decide +kernel

theorem offScan_mirrored (W : Type) : MirroredScan mirrorX axesGeo (offScan W) (offScan' W) := by
  refine ⟨rfl, rfl, fun p q _ _ => ?_, ?_, ?_⟩
  · show [![-1, -1]] = List.map (mirrorBundle mirrorX) [![0, -1]]
    decide +kernel
  · have := axesCloud_off ![1 / 5, -1 / 5] (by simp [axesCloud])
    show OffBorders 1 ((0 : Pt ℚ 2) + ![1 / 5, -1 / 5])
    rw [zero_add]
    exact this
  · intro p hp
    have hp : p = ![0, 0] ∨ p = ![2 / 5, 1 / 10] := by simpa [offScan] using hp
    rcases hp with rfl | rfl
    · have e : (![0, 0] : Pt ℚ 2) + ![1 / 5, -1 / 5] = ![1 / 5, -1 / 5] := by decide +kernel
      show OffBorders 1 ((![0, 0] : Pt ℚ 2) + ![1 / 5, -1 / 5])
      rw [e]
      exact axesCloud_off ![1 / 5, -1 / 5] (by simp [axesCloud])
    · have e : (![2 / 5, 1 / 10] : Pt ℚ 2) + ![1 / 5, -1 / 5] = ![3 / 5, -1 / 10] := by decide +kernel
      show OffBorders 1 ((![2 / 5, 1 / 10] : Pt ℚ 2) + ![1 / 5, -1 / 5])
      rw [e]
      exact axesCloud_off ![3 / 5, -1 / 10] (by simp [axesCloud])

/-- Non-vacuity: a scan with misses, and its mirror image with another hash order. -/
example : ∃ st st', mirrorO = some st ∧ mirrorO' = some st' ∧
    List.Forall₂ (MirroredOccOp mirrorX axesGeo) [(.insert (offScan Nat) : OccMapOp ℚ 2 Nat (Pt ℚ 2))] [.insert (offScan' Nat)] ∧
    ((st.content 1 ![0, -1]).getD Occ.new).numFree = 2 ∧ ((st'.content 1 (mirrorCell mirrorX 1 ![0, -1])).getD Occ.new).numFree = 2 ∧
    ((st.content 0 ![0, -1]).getD Occ.new).numFree = 2 ∧ ((st'.content 0 ![-1, -1]).getD Occ.new).numFree = 2 :=
  ⟨_, _, (Option.some_get mirrorO_runs).symm, (Option.some_get mirrorO'_runs).symm, .cons (.insert _ _ (offScan_mirrored Nat)) .nil, by decide +kernel, by decide +kernel, by decide +kernel, by decide +kernel⟩

def turnScan (W : Type) : Scan ℚ 2 W :=
  { pose := turnMap axesSwap mirrorX (fun p => p + ![1 / 5, -1 / 5]), cloud := [![0, 0], ![2 / 5, 1 / 10]].map (rightTurn axesSwap mirrorX), ray := fun _ _ => [![0, 0]], order := List.reverse,
    order_perm := fun l => List.reverse_perm l }
def turnO : Option (St (turnKind axesSwap mirrorX axesKind).backend (Occ Nat (Pt ℚ 2))) :=
  occRun (occFlavour ℚ 2) (turnGeo axesSwap mirrorX axesGeo) (turnKind axesSwap mirrorX axesKind).dyn (fun _ _ => []) (fun _ => false) [.insert (turnScan Nat)] ((turnKind axesSwap mirrorX axesKind).init _)
theorem turnO_runs : turnO.isSome = true := by decide +kernel

theorem offScan_turned (W : Type) : TurnedScan axesSwap mirrorX axesGeo (offScan W) (turnScan W) := by
  refine ⟨rfl, rfl, fun p q _ _ => ?_, (offScan_mirrored W).origin, (offScan_mirrored W).off⟩
  show [![0, 0]] = List.map (turnBundle axesSwap mirrorX) [![0, -1]]
  decide +kernel

/-- Non-vacuity: the same scan turned by 90°, with another hash order. -/
example : ∃ st st', mirrorO = some st ∧ turnO = some st' ∧
    List.Forall₂ (TurnedOccOp axesSwap mirrorX axesGeo) [(.insert (offScan Nat) : OccMapOp ℚ 2 Nat (Pt ℚ 2))] [.insert (turnScan Nat)] ∧
    permuteGrid axesSwap 1 = 2 ∧ ((st.content 1 ![0, -1]).getD Occ.new).numFree = 2 ∧ ((st'.content 2 (turnCell axesSwap mirrorX 1 ![0, -1])).getD Occ.new).numFree = 2 :=
  ⟨_, _, (Option.some_get mirrorO_runs).symm, (Option.some_get turnO_runs).symm, .cons (.insert _ _ (offScan_turned Nat)) .nil, by decide +kernel, by decide +kernel, by decide +kernel⟩

end Ndt
