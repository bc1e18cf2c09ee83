import Verif.Spec.Axes
import Verif.Props.Field
import Verif.Props.OccMap
import Verif.Props.Units

/-!
Property theorems C106: the axes are interchangeable. A map that is given everything with the coordinates in another order holds the same data in the other order.
-/

namespace Ndt
open St Spec

section
variable {K : Type} {d : Nat}

theorem permute_symm {A : Type} (σ : Equiv.Perm (Fin d)) (p : Fin d → A) : permute σ.symm (permute σ p) = p := funext fun a => congrArg p (σ.apply_symm_apply a)
theorem permute_symm' {A : Type} (σ : Equiv.Perm (Fin d)) (p : Fin d → A) : permute σ (permute σ.symm p) = p := funext fun a => congrArg p (σ.symm_apply_apply a)

theorem permuteMap_apply (σ : Equiv.Perm (Fin d)) (f : Pt K d → Pt K d) (p : Pt K d) : permuteMap σ f (permute σ p) = permute σ (f p) := by
  unfold permuteMap
  rw [permute_symm]

theorem permuteGrid_lt (σ : Equiv.Perm (Fin d)) (c : Nat) : permuteGrid σ c < 2 ^ d := Nat.ofBits_lt_two_pow _

theorem permuteGrid_bit (σ : Equiv.Perm (Fin d)) (c : Nat) (a : Fin d) : (permuteGrid σ c).testBit a.1 = c.testBit (σ a).1 := Nat.testBit_ofBits_lt _ a.1 a.2

theorem permuteGrid_symm (σ : Equiv.Perm (Fin d)) (c : Nat) (hc : c < 2 ^ d) : permuteGrid σ.symm (permuteGrid σ c) = c := by
  refine Nat.eq_of_testBit_eq fun j => ?_
  by_cases hj : j < d
  · rw [permuteGrid_bit σ.symm _ ⟨j, hj⟩, permuteGrid_bit, Equiv.apply_symm_apply]
  · have h2 : 2 ^ d ≤ 2 ^ j := Nat.pow_le_pow_right (by norm_num) (by omega)
    rw [Nat.testBit_eq_false_of_lt (lt_of_lt_of_le (permuteGrid_lt _ _) h2), Nat.testBit_eq_false_of_lt (lt_of_lt_of_le hc h2)]

variable [Field K]

theorem sum_permuteGrid (σ : Equiv.Perm (Fin d)) (f : Nat → K) : ∑ c ∈ Finset.range (2 ^ d), f (permuteGrid σ c) = ∑ c ∈ Finset.range (2 ^ d), f c := by
  refine Finset.sum_nbij' (permuteGrid σ) (permuteGrid σ.symm) ?_ ?_ ?_ ?_ ?_
  · intro c _; exact Finset.mem_range.2 (permuteGrid_lt _ _)
  · intro c _; exact Finset.mem_range.2 (permuteGrid_lt _ _)
  · intro c hc; exact permuteGrid_symm σ c (Finset.mem_range.1 hc)
  · intro c hc; exact permuteGrid_symm σ.symm c (Finset.mem_range.1 hc)
  · intro c _; rfl

variable [LinearOrder K]

theorem shift_permute (σ : Equiv.Perm (Fin d)) (c : Nat) (a : Fin d) : shift K (permuteGrid σ c) a.1 = shift K c (σ a).1 := by
  unfold shift
  rw [permuteGrid_bit]

theorem inCell_permute (σ : Equiv.Perm (Fin d)) (r : K) (c : Nat) (i : Idx d) (p : Pt K d) : InCell r (permuteGrid σ c) (permute σ i) (permute σ p) ↔ InCell r c i p := by
  unfold InCell
  simp only [shift_permute]
  exact ⟨fun h a => by simpa [permute] using h (σ.symm a), fun h a => h (σ a)⟩

theorem inBundle_permute (σ : Equiv.Perm (Fin d)) (r : K) (b : Idx d) (p : Pt K d) : InBundle r (permute σ b) (permute σ p) ↔ InBundle r b p :=
  ⟨fun h a => by simpa [permute] using h (σ.symm a), fun h a => h (σ a)⟩

theorem hat_permute (σ : Equiv.Perm (Fin d)) (r : K) (c : Nat) (i : Idx d) (p : Pt K d) : hat r (permuteGrid σ c) (permute σ i) (permute σ p) = hat r c i p := by
  unfold hat centre
  simp only [shift_permute]
  exact Equiv.prod_comp σ fun a => max 0 (1 - |p a - ((i a : K) + 1 / 2 - shift K c a.1) * r| / (r / 2))

theorem region_permute (σ : Equiv.Perm (Fin d)) (r : K) (k : Kind d) (p : Pt K d) : Region r (permuteKind σ k) (permute σ p) ↔ Region r k p := by
  cases k with
  | dynamic _ _ => exact Iff.rfl
  | static size lo => exact ⟨fun h a => by simpa [permute] using h (σ.symm a), fun h a => h (σ a)⟩

theorem validBundle_permute (σ : Equiv.Perm (Fin d)) (k : Kind d) (b : Idx d) : ValidBundle (permuteKind σ k) (permute σ b) ↔ ValidBundle k b := by
  cases k with
  | dynamic _ _ => exact Iff.rfl
  | static size lo => exact ⟨fun h a => by simpa [permute] using h (σ.symm a), fun h a => h (σ a)⟩

theorem bundleInCell_permute (σ : Equiv.Perm (Fin d)) (r : K) (b : Idx d) (c : Nat) (i : Idx d) : BundleInCell r (permute σ b) (permuteGrid σ c) (permute σ i) ↔ BundleInCell r b c i := by
  constructor
  · intro h p hp
    exact (inCell_permute σ r c i p).1 (h _ ((inBundle_permute σ r b p).2 hp))
  · intro h p hp
    rw [← permute_symm' σ p] at hp ⊢
    exact (inCell_permute σ r c i _).2 (h _ ((inBundle_permute σ r b _).1 hp))

theorem acceptedPoints_permute (σ : Equiv.Perm (Fin d)) (g : Geo K d) (k : Kind d) (pose : Pt K d → Pt K d) (cloud : List (Pt K d)) :
    acceptedPoints (permuteGeo σ g) (permuteKind σ k) (permuteMap σ pose) (cloud.map (permute σ)) = (acceptedPoints g k pose cloud).map (permute σ) := by
  classical
  have e : (((cloud.map (permute σ)).map (permuteMap σ pose)).filter fun p => (permuteGeo σ g).normal p).map (permuteGeo σ g).toMap =
      (((cloud.map pose).filter fun p => g.normal p).map g.toMap).map (permute σ) := by
    have e1 : (cloud.map (permute σ)).map (permuteMap σ pose) = (cloud.map pose).map (permute σ) := by
      rw [List.map_map, List.map_map]
      exact List.map_congr_left fun p _ => permuteMap_apply σ pose p
    rw [e1, List.filter_map, List.map_map, List.map_map]
    have e2 : (fun p => (permuteGeo σ g).normal p) ∘ permute σ = fun p => g.normal p := by
      funext p
      show g.normal (permute σ.symm (permute σ p)) = _
      rw [permute_symm]
    rw [e2]
    exact List.map_congr_left fun p _ => permuteMap_apply σ g.toMap p
  unfold acceptedPoints
  rw [e, ← Multiset.map_coe, Multiset.filter_map]
  refine congrArg _ (Multiset.filter_congr fun p _ => region_permute σ g.r k p)

theorem accepted_permute (σ : Equiv.Perm (Fin d)) (g : Geo K d) (k : Kind d) {ops ops' : List (GridOp K d)} (h : List.Forall₂ (PermutedOp σ) ops ops') :
    accepted (permuteGeo σ g) (permuteKind σ k) ops' = (accepted g k ops).map (permute σ) := by
  induction h with
  | nil => rfl
  | cons ho _ ih =>
    cases ho with
    | core _ _ => exact ih
    | insert pose cloud =>
      show acceptedPoints _ _ _ _ + accepted _ _ _ = (acceptedPoints _ _ _ _ + accepted _ _ _).map _
      rw [ih, acceptedPoints_permute, Multiset.map_add]

variable [IsStrictOrderedRing K] [FloorRing K]

theorem cellMates_permute (σ : Equiv.Perm (Fin d)) {r : K} (acc : Multiset (Pt K d)) (c : Nat) (q : Pt K d) :
    cellMates r (acc.map (permute σ)) (permuteGrid σ c) (permute σ q) = (cellMates r acc c q).map (permute σ) := by
  classical
  unfold cellMates
  rw [Multiset.filter_map]
  refine congrArg _ (Multiset.filter_congr fun a _ => ?_)
  constructor
  · rintro ⟨i, h1, h2⟩
    rw [← permute_symm' σ i] at h1 h2
    exact ⟨_, (inCell_permute σ r c _ q).1 h1, (inCell_permute σ r c _ a).1 h2⟩
  · rintro ⟨i, h1, h2⟩
    exact ⟨permute σ i, (inCell_permute σ r c i q).2 h1, (inCell_permute σ r c i a).2 h2⟩

/-- **C106** (contents of NDT maps). Give one map a history of insertions, lookups and allocations, and another one the same history with the coordinates of everything in another order: size, origin, poses and clouds. Then the cell with
the permuted index, in the grid with the permuted shift, holds the same points with permuted coordinates. -/
theorem C106_contents (σ : Equiv.Perm (Fin d)) (k : Kind d) (g : Geo K d) (hr : 0 < g.r) (exp exp' : Multiset (Pt K d) → Bool) (ops ops' : List (GridOp K d)) (hops : List.Forall₂ (PermutedOp σ) ops ops')
    (st : St k.backend (Multiset (Pt K d))) (h : gridRun g k.dyn exp ops (k.init _) = some st)
    (st' : St (permuteKind σ k).backend (Multiset (Pt K d))) (h' : gridRun (permuteGeo σ g) (permuteKind σ k).dyn exp' ops' ((permuteKind σ k).init _) = some st')
    (c : Nat) (hc : c < 2 ^ d) (i : Idx d) :
    (st'.content (permuteGrid σ c) (permute σ i)).getD 0 = ((st.content c i).getD 0).map (permute σ) := by
  classical
  rw [C10_contents_exact k g hr exp ops st h c hc i, C10_contents_exact (permuteKind σ k) (permuteGeo σ g) hr exp' ops' st' h' _ (permuteGrid_lt σ c), accepted_permute σ g k hops, Multiset.filter_map]
  exact congrArg _ (Multiset.filter_congr fun p _ => inCell_permute σ g.r c i p)

/-- **C106** (samples of NDT maps). If the density treats the axes alike, then after neighbourhood allocation, possibly followed by lookups and further allocations, both maps have the same samples at corresponding points. -/
theorem C106_samples (σ : Equiv.Perm (Fin d)) (k : Kind d) (g : Geo K d) (hr : 0 < g.r) (exp : Multiset (Pt K d) → Bool) (hexp : exp 0 = false) (ops ops' : List (GridOp K d))
    (hops : List.Forall₂ (PermutedOp σ) ops ops') (more more' : List (CoreOp d))
    (st : St k.backend (Multiset (Pt K d))) (h : gridRun g k.dyn exp (expandedHistory ops more) (k.init _) = some st)
    (st' : St (permuteKind σ k).backend (Multiset (Pt K d))) (h' : gridRun (permuteGeo σ g) (permuteKind σ k).dyn exp (expandedHistory ops' more') ((permuteKind σ k).init _) = some st')
    (dens : Multiset (Pt K d) → Pt K d → K) (hd : ∀ s q, exp s = false → dens s q = 0) (hdσ : ∀ s q, dens (s.map (permute σ)) (permute σ q) = dens s q)
    (p : Pt K d) (hp : Region g.r k (g.toMap p)) (x x' : K) :
    (sampleNNAt g k.dyn dens p st = some x → sampleNNAt (permuteGeo σ g) (permuteKind σ k).dyn dens (permute σ p) st' = some x' → x' = x) ∧
    (sampleBilinearAt g k.dyn dens p st = some x → sampleBilinearAt (permuteGeo σ g) (permuteKind σ k).dyn dens (permute σ p) st' = some x' → x' = x) := by
  have hq : (permuteGeo σ g).toMap (permute σ p) = permute σ (g.toMap p) := permuteMap_apply σ g.toMap p
  have hp' : Region (permuteGeo σ g).r (permuteKind σ k) ((permuteGeo σ g).toMap (permute σ p)) := by rw [hq]; exact (region_permute σ g.r k _).2 hp
  obtain ⟨a1, a2⟩ := C90_field_of_points k g hr exp hexp ops more st h dens hd p hp x
  obtain ⟨b1, b2⟩ := C90_field_of_points (permuteKind σ k) (permuteGeo σ g) hr exp hexp ops' more' st' h' dens hd (permute σ p) hp' x'
  rw [accepted_permute σ g k hops, hq] at b1 b2
  have key : ∀ c, dens (cellMates g.r ((accepted g k ops).map (permute σ)) (permuteGrid σ c) (permute σ (g.toMap p))) (permute σ (g.toMap p)) =
      dens (cellMates g.r (accepted g k ops) c (g.toMap p)) (g.toMap p) := by
    intro c
    rw [cellMates_permute, hdσ]
  constructor
  · intro hx hx'
    rw [a1 hx, b1 hx', ← sum_permuteGrid σ]
    exact congrArg (· / _) (Finset.sum_congr rfl fun c _ => key c)
  · intro hx hx'
    have hi : ∀ c, InCell g.r c (generateIndex (toBundleIndex g.r (g.toMap p)) c) (g.toMap p) := fun c => (C01_point_in_selected_cell hr _ c _).1 rfl
    have hi' : ∀ c, InCell g.r c (generateIndex (toBundleIndex g.r (permute σ (g.toMap p))) c) (permute σ (g.toMap p)) := fun c => (C01_point_in_selected_cell hr _ c _).1 rfl
    rw [a2 hx _ hi, b2 hx' _ hi', ← sum_permuteGrid σ]
    refine Finset.sum_congr rfl fun c _ => ?_
    rw [show (permuteGeo σ g).r = g.r from rfl, key c, cell_index hr _ _ _ ((inCell_permute σ g.r c _ _).2 (hi c)), hat_permute]

/-! ### occupancy maps -/
variable {W E : Type}

omit [IsStrictOrderedRing K] [FloorRing K] in
theorem hits_permute (σ : Equiv.Perm (Fin d)) (g : Geo K d) (k : Kind d) {s s' : Scan K d W} (h : PermutedScan σ s s') :
    hits (permuteGeo σ g) (permuteKind σ k) s' = (hits g k s).map (permute σ) := by
  unfold hits
  rw [h.pose, h.cloud, List.filter_map, ← acceptedPoints_permute]
  have e : (fun p => (permuteGeo σ g).normal p) ∘ permute σ = fun p => g.normal p := by
    funext p
    show g.normal (permute σ.symm (permute σ p)) = _
    rw [permute_symm]
  rw [e]

theorem permute_injective {A : Type} (σ : Equiv.Perm (Fin d)) : Function.Injective (permute (A := A) σ) := fun p q h => by
  rw [← permute_symm σ p, h, permute_symm]

theorem hitBundles_permute (σ : Equiv.Perm (Fin d)) (g : Geo K d) (k : Kind d) {s s' : Scan K d W} (h : PermutedScan σ s s') :
    hitBundles (permuteGeo σ g) (permuteKind σ k) s' = (hitBundles g k s).image (permute σ) := by
  unfold hitBundles
  rw [hits_permute σ g k h, ← Multiset.toFinset_map, Multiset.map_map, Multiset.map_map]
  rfl

theorem hitsIn_permute (σ : Equiv.Perm (Fin d)) (g : Geo K d) (k : Kind d) {s s' : Scan K d W} (h : PermutedScan σ s s') (b : Idx d) :
    hitsIn (permuteGeo σ g) (permuteKind σ k) s' (permute σ b) = (hitsIn g k s b).map (permute σ) := by
  classical
  unfold hitsIn
  rw [hits_permute σ g k h, Multiset.filter_map]
  exact congrArg _ (Multiset.filter_congr fun p _ => inBundle_permute σ g.r b p)

theorem rayOf_permute (σ : Equiv.Perm (Fin d)) (g : Geo K d) (k : Kind d) {s s' : Scan K d W} (h : PermutedScan σ s s') (b : Idx d) :
    rayOf (permuteGeo σ g) (permuteKind σ k) s' (permute σ b) = (rayOf g k s b).map (permute σ) := by
  unfold rayOf
  rw [← h.ray, hitsIn_permute σ g k h]
  congr 1
  · rw [h.pose]
    have : (0 : Pt K d) = permute σ (0 : Pt K d) := rfl
    rw [this, permuteMap_apply]
    exact permuteMap_apply σ g.toMap _
  · funext a
    unfold meanOf permute
    rw [Multiset.map_map, Multiset.card_map]
    rfl

theorem misses_permute (σ : Equiv.Perm (Fin d)) (skip : Bool) (g : Geo K d) (k : Kind d) {s s' : Scan K d W} (h : PermutedScan σ s s') (c : Nat) (i : Idx d) :
    misses skip (permuteGeo σ g) (permuteKind σ k) s' (permuteGrid σ c) (permute σ i) = misses skip g k s c i := by
  unfold misses
  rw [hitBundles_permute σ g k h, Finset.sum_image fun a _ b _ e => permute_injective σ e]
  refine Finset.sum_congr rfl fun b _ => ?_
  rw [rayOf_permute σ g k h, hitsIn_permute σ g k h, Multiset.card_map, List.filter_map, List.length_map]
  refine congrArg (fun l => List.length l * _) (List.filter_congr fun x _ => ?_)
  simp only [Function.comp]
  rw [decide_eq_decide]
  refine and_congr (validBundle_permute σ k x) (and_congr (bundleInCell_permute σ g.r x c i) (imp_congr_right fun _ => not_congr ?_))
  rw [Finset.mem_image]
  exact ⟨fun ⟨y, hy, e⟩ => permute_injective σ e ▸ hy, fun hx => ⟨x, hx, rfl⟩⟩

omit [Field K] [LinearOrder K] [IsStrictOrderedRing K] [FloorRing K] in
theorem scans_permute (σ : Equiv.Perm (Fin d)) {ops ops' : List (OccMapOp K d W E)} (h : List.Forall₂ (PermutedOccOp σ) ops ops') :
    List.Forall₂ (PermutedScan σ) (scansOf ops) (scansOf ops') ∧ (∀ op ∈ ops, op.Plain) ∧ ∀ op ∈ ops', op.Plain := by
  induction h with
  | nil => exact ⟨.nil, by simp, by simp⟩
  | cons ho _ ih =>
    obtain ⟨i1, i2, i3⟩ := ih
    cases ho with
    | core op op' => exact ⟨i1, List.forall_mem_cons.2 ⟨trivial, i2⟩, List.forall_mem_cons.2 ⟨trivial, i3⟩⟩
    | insert s s' h => exact ⟨.cons h i1, List.forall_mem_cons.2 ⟨trivial, i2⟩, List.forall_mem_cons.2 ⟨trivial, i3⟩⟩

theorem hits_sum_permute (σ : Equiv.Perm (Fin d)) (g : Geo K d) (k : Kind d) {l l' : List (Scan K d W)} (h : List.Forall₂ (PermutedScan σ) l l') :
    (l'.map fun s => hits (permuteGeo σ g) (permuteKind σ k) s).sum = ((l.map fun s => hits g k s).sum).map (permute σ) := by
  induction h with
  | nil => rfl
  | cons h _ ih => rw [List.map_cons, List.map_cons, List.sum_cons, List.sum_cons, ih, hits_permute σ g k h, Multiset.map_add]

theorem misses_sum_permute (σ : Equiv.Perm (Fin d)) (skip : Bool) (g : Geo K d) (k : Kind d) {l l' : List (Scan K d W)} (h : List.Forall₂ (PermutedScan σ) l l') (c : Nat) (i : Idx d) :
    (l'.map fun s => misses skip (permuteGeo σ g) (permuteKind σ k) s (permuteGrid σ c) (permute σ i)).sum = (l.map fun s => misses skip g k s c i).sum := by
  induction h with
  | nil => rfl
  | cons h _ ih => rw [List.map_cons, List.map_cons, List.sum_cons, List.sum_cons, ih, misses_permute σ skip g k h]

/-- **C106** (occupancy maps). The same for occupancy maps, if the line iterators treat the axes alike: corresponding cells have the same hits with permuted coordinates, the same number of misses, and hence the same occupancy. -/
theorem C106_occupancy_contents (σ : Equiv.Perm (Fin d)) (k : Kind d) (g : Geo K d) (hr : 0 < g.r) (ray ray' : Pt K d → Pt K d → List (Idx d)) (exp exp' : Occ Nat (Pt K d) → Bool)
    (ops ops' : List (OccMapOp K d Nat (Pt K d))) (hops : List.Forall₂ (PermutedOccOp σ) ops ops')
    (st : St k.backend (Occ Nat (Pt K d))) (h : occRun (occFlavour K d) g k.dyn ray exp ops (k.init _) = some st)
    (st' : St (permuteKind σ k).backend (Occ Nat (Pt K d))) (h' : occRun (occFlavour K d) (permuteGeo σ g) (permuteKind σ k).dyn ray' exp' ops' ((permuteKind σ k).init _) = some st')
    (c : Nat) (hc : c < 2 ^ d) (i : Idx d) :
    ((st'.content (permuteGrid σ c) (permute σ i)).getD Occ.new).samples = ((st.content c i).getD Occ.new).samples.map (permute σ) ∧
    ((st'.content (permuteGrid σ c) (permute σ i)).getD Occ.new).numOccupied = ((st.content c i).getD Occ.new).numOccupied ∧
    ((st'.content (permuteGrid σ c) (permute σ i)).getD Occ.new).numFree = ((st.content c i).getD Occ.new).numFree := by
  classical
  obtain ⟨hs, hp, hp'⟩ := scans_permute σ hops
  obtain ⟨a1, a2, a3⟩ := C27_occupancy_counts k g hr ray exp ops hp st h c hc i
  obtain ⟨b1, b2, b3⟩ := C27_occupancy_counts (permuteKind σ k) (permuteGeo σ g) hr ray' exp' ops' hp' st' h' (permuteGrid σ c) (permuteGrid_lt σ c) (permute σ i)
  have e : ((((scansOf ops').map fun s => hits (permuteGeo σ g) (permuteKind σ k) s).sum).filter (InCell (permuteGeo σ g).r (permuteGrid σ c) (permute σ i))) =
      ((((scansOf ops).map fun s => hits g k s).sum).filter (InCell g.r c i)).map (permute σ) := by
    rw [hits_sum_permute σ g k hs, Multiset.filter_map]
    exact congrArg _ (Multiset.filter_congr fun p _ => inCell_permute σ g.r c i p)
  refine ⟨by rw [a2, b2, e], by rw [a3, b3, e, Multiset.card_map], by rw [a1, b1, misses_sum_permute σ false g k hs]⟩

/-- **C106** (weighted occupancy maps): as `C106_occupancy_contents`. -/
theorem C106_weighted_contents (σ : Equiv.Perm (Fin d)) (k : Kind d) (g : Geo K d) (hr : 0 < g.r) (ray ray' : Pt K d → Pt K d → List (Idx d)) (exp exp' : Occ K (Pt K d × K) → Bool)
    (ops ops' : List (OccMapOp K d K (Pt K d × K))) (hops : List.Forall₂ (PermutedOccOp σ) ops ops')
    (st : St k.backend (Occ K (Pt K d × K))) (h : occRun (weightedFlavour K d) g k.dyn ray exp ops (k.init _) = some st)
    (st' : St (permuteKind σ k).backend (Occ K (Pt K d × K))) (h' : occRun (weightedFlavour K d) (permuteGeo σ g) (permuteKind σ k).dyn ray' exp' ops' ((permuteKind σ k).init _) = some st')
    (c : Nat) (hc : c < 2 ^ d) (i : Idx d) :
    ((st'.content (permuteGrid σ c) (permute σ i)).getD Occ.new).samples = ((st.content c i).getD Occ.new).samples.map (fun x => (permute σ x.1, x.2)) ∧
    ((st'.content (permuteGrid σ c) (permute σ i)).getD Occ.new).weightOccupied = ((st.content c i).getD Occ.new).weightOccupied ∧
    ((st'.content (permuteGrid σ c) (permute σ i)).getD Occ.new).numFree = ((st.content c i).getD Occ.new).numFree := by
  classical
  obtain ⟨hs, hp, hp'⟩ := scans_permute σ hops
  obtain ⟨a1, a2, a3⟩ := C27_weighted_counts k g hr ray exp ops hp st h c hc i
  obtain ⟨b1, b2, b3⟩ := C27_weighted_counts (permuteKind σ k) (permuteGeo σ g) hr ray' exp' ops' hp' st' h' (permuteGrid σ c) (permuteGrid_lt σ c) (permute σ i)
  have e : ((((scansOf ops').map fun s => hits (permuteGeo σ g) (permuteKind σ k) s).sum).filter (InCell (permuteGeo σ g).r (permuteGrid σ c) (permute σ i))) =
      ((((scansOf ops).map fun s => hits g k s).sum).filter (InCell g.r c i)).map (permute σ) := by
    rw [hits_sum_permute σ g k hs, Multiset.filter_map]
    exact congrArg _ (Multiset.filter_congr fun p _ => inCell_permute σ g.r c i p)
  refine ⟨?_, by rw [a3, b3, e, Multiset.card_map], by rw [a1, b1, misses_sum_permute σ true g k hs]⟩
  rw [a2, b2, e, Multiset.map_map, Multiset.map_map]
  rfl

end

/-- The density of the normal distribution with mean and covariance of the points of a distribution treats the axes alike, as `C106_samples` requires. -/
theorem C106_normal_density {d : Nat} (σ : Equiv.Perm (Fin d)) (m : Multiset (Pt ℝ d)) (q : Pt ℝ d) : Spec.gaussOf (m.map (permute σ)) (permute σ q) = Spec.gaussOf m q := by
  have hm : Spec.sampleMean (m.map (permute σ)) = permute σ (Spec.sampleMean m) := by
    funext a
    simp only [Spec.sampleMean, Multiset.map_map, Multiset.card_map, Function.comp_def, permute]
  have hc : Spec.sampleCov (m.map (permute σ)) = (Spec.sampleCov m).submatrix σ σ := by
    funext a b
    simp only [Spec.sampleCov, hm, Multiset.map_map, Multiset.card_map, Function.comp_def, permute, Matrix.submatrix_apply]
  unfold Spec.gaussOf
  rw [hm, hc, Matrix.inv_submatrix_equiv]
  congr 2
  simp only [permute, Matrix.submatrix_apply]
  rw [Equiv.sum_comp σ fun a => ∑ b, (q a - Spec.sampleMean m a) * (Spec.sampleCov m)⁻¹ a (σ b) * (q (σ b) - Spec.sampleMean m (σ b))]
  exact Finset.sum_congr rfl fun a _ => Equiv.sum_comp σ fun b => (q a - Spec.sampleMean m a) * (Spec.sampleCov m)⁻¹ a b * (q b - Spec.sampleMean m b)

/-! ### Concrete cases -/

/-- a static map of 2 by 1 cells, two points, and the same with the axes exchanged -/
def axesKind : Kind 2 := .static ![2, 1] ![0, -1]
def axesGeo : Geo ℚ 2 := { r := 1, toMap := id, normal := fun _ => true }
def axesSwap : Equiv.Perm (Fin 2) := Equiv.swap 0 1
def axesCloud : List (Pt ℚ 2) := [![1 / 5, -1 / 5], ![3 / 5, -1 / 10]]
def axesExp : Multiset (Pt ℚ 2) → Bool := fun s => decide (0 < s.card)
def axesDens : Multiset (Pt ℚ 2) → Pt ℚ 2 → ℚ := fun s _ => s.card

def axesN : Option (St axesKind.backend (Multiset (Pt ℚ 2))) := gridRun axesGeo axesKind.dyn axesExp (expandedHistory [.insert id axesCloud] []) (axesKind.init _)
def axesN' : Option (St (permuteKind axesSwap axesKind).backend (Multiset (Pt ℚ 2))) :=
  gridRun (permuteGeo axesSwap axesGeo) (permuteKind axesSwap axesKind).dyn axesExp (expandedHistory [.insert (permuteMap axesSwap id) (axesCloud.map (permute axesSwap))] []) ((permuteKind axesSwap axesKind).init _)
theorem axesN_runs : axesN.isSome = true := by decide +kernel
theorem axesN'_runs : axesN'.isSome = true := by decide +kernel

/-- Non-vacuity: both maps run, the density treats the axes alike, and the samples at corresponding points are equal; grid 1 and grid 2 change places. -/
example : ∃ st st', axesN = some st ∧ axesN' = some st' ∧ List.Forall₂ (PermutedOp axesSwap) [(.insert id axesCloud : GridOp ℚ 2)] [.insert (permuteMap axesSwap id) (axesCloud.map (permute axesSwap))] ∧
    (∀ s q, axesExp s = false → axesDens s q = 0) ∧ (∀ s q, axesDens (s.map (permute axesSwap)) (permute axesSwap q) = axesDens s q) ∧ Region axesGeo.r axesKind (axesGeo.toMap ![1 / 5, -1 / 5]) ∧
    sampleNNAt axesGeo axesKind.dyn axesDens ![1 / 5, -1 / 5] st = some (3 / 2) ∧
    sampleNNAt (permuteGeo axesSwap axesGeo) (permuteKind axesSwap axesKind).dyn axesDens (permute axesSwap ![1 / 5, -1 / 5]) st' = some (3 / 2) ∧ permuteGrid axesSwap 1 = 2 := by
  refine ⟨_, _, (Option.some_get axesN_runs).symm, (Option.some_get axesN'_runs).symm, .cons (.insert _ _) .nil, ?_, ?_, ?_, by decide +kernel, by decide +kernel, by decide +kernel⟩
  · intro s q h
    have : s.card = 0 := by simpa [axesExp] using h
    unfold axesDens
    rw [this]; rfl
  · intro s q
    unfold axesDens
    rw [Multiset.card_map]
  · refine (valid_iff_region (Multiset (Pt ℚ 2)) axesGeo.r (by decide) axesKind _).1 ?_
    decide +kernel

def axesScan (W : Type) : Scan ℚ 2 W := { pose := id, cloud := axesCloud, ray := fun _ _ => [![0, -1]], order := id, order_perm := fun l => List.Perm.refl l }
def axesScan' (W : Type) : Scan ℚ 2 W :=
  { pose := permuteMap axesSwap id, cloud := axesCloud.map (permute axesSwap), ray := fun _ _ => [![-1, 0]], order := List.reverse, order_perm := fun l => List.reverse_perm l }
def axesO : Option (St axesKind.backend (Occ Nat (Pt ℚ 2))) := occRun (occFlavour ℚ 2) axesGeo axesKind.dyn (fun _ _ => []) (fun _ => false) [.insert (axesScan Nat)] (axesKind.init _)
def axesO' : Option (St (permuteKind axesSwap axesKind).backend (Occ Nat (Pt ℚ 2))) :=
  occRun (occFlavour ℚ 2) (permuteGeo axesSwap axesGeo) (permuteKind axesSwap axesKind).dyn (fun _ _ => []) (fun _ => false) [.insert (axesScan' Nat)] ((permuteKind axesSwap axesKind).init _)
theorem axesO_runs : axesO.isSome = true := by decide +kernel
theorem axesO'_runs : axesO'.isSome = true := by decide +kernel

/-- Non-vacuity: a scan with misses, and the same scan with the axes exchanged and another hash order. -/
example : ∃ st st', axesO = some st ∧ axesO' = some st' ∧
    List.Forall₂ (PermutedOccOp axesSwap) [(.insert (axesScan Nat) : OccMapOp ℚ 2 Nat (Pt ℚ 2))] [.insert (axesScan' Nat)] ∧
    ((st.content 1 ![0, -1]).getD Occ.new).numFree = 2 ∧ ((st'.content 2 ![-1, 0]).getD Occ.new).numFree = 2 := by
  refine ⟨_, _, (Option.some_get axesO_runs).symm, (Option.some_get axesO'_runs).symm, .cons (.insert _ _ ⟨rfl, rfl, fun p q => ?_⟩) .nil, by decide +kernel, by decide +kernel⟩
  show [![-1, 0]] = List.map (permute axesSwap) [![0, -1]]
  decide +kernel

def mirrorN : Option (St fieldKind.backend (Multiset (Pt ℚ 1))) := gridRun fieldGeo fieldKind.dyn fieldExp (expandedHistory [.insert id [fun _ => 0]] []) (fieldKind.init _)
theorem mirrorN_runs : mirrorN.isSome = true := by decide +kernel

/-- **C106** (mirror images are not interchangeable): cells are half open. A point on the border of a cell is its own mirror image, but belongs to one side: after its insertion the sample at `1/4` is 1, the one at `-1/4` is `1/2`. -/
theorem C106_mirror_refuted : ∃ st : St fieldKind.backend (Multiset (Pt ℚ 1)),
    gridRun fieldGeo fieldKind.dyn fieldExp (expandedHistory [.insert id [fun _ => 0]] []) (fieldKind.init _) = some st ∧
    sampleNNAt fieldGeo fieldKind.dyn fieldDens (fun _ => 1 / 4) st = some 1 ∧ sampleNNAt fieldGeo fieldKind.dyn fieldDens (fun _ => -1 / 4) st = some (1 / 2) :=
  ⟨_, (Option.some_get mirrorN_runs).symm, by decide +kernel, by decide +kernel⟩

end Ndt
