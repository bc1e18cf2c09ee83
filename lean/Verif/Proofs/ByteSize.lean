import Verif.Model.ByteSize
import Verif.Spec.Memory
import Verif.Proofs.SerialMap
import Mathlib.Algebra.Order.BigOperators.Group.Finset

namespace Ndt
open Octree
namespace Octree
variable {d : Nat} {V : Type}

/-- indices stored below a node -/
def indices (h : Nat) (n : Node d V h) : Finset (Idx d) := ((traverseNode h n).map Prod.fst).toFinset

def indicesOpt (h : Nat) : Option (Node d V h) → Finset (Idx d)
  | none => ∅
  | some n => indices h n

theorem mem_indices {h : Nat} {n : Node d V h} {i : Idx d} : i ∈ indices h n ↔ ∃ e ∈ traverseNode h n, e.1 = i := by
  simp [indices]

theorem indices_succ (h : Nat) (n : Node d V (h + 1)) :
    indices (h + 1) n = (Finset.range (2 ^ d)).biUnion fun p => indicesOpt h ((n : Nat → Option (Node d V h)) p) := by
  ext i
  rw [mem_indices, Finset.mem_biUnion]
  constructor
  · rintro ⟨e, he, rfl⟩
    obtain ⟨p, c, hp, hc, he⟩ := (mem_traverse_succ h n e).1 he
    refine ⟨p, Finset.mem_range.2 hp, ?_⟩
    rw [hc]; exact mem_indices.2 ⟨e, he, rfl⟩
  · rintro ⟨p, hp, hi⟩
    cases hc : (n : Nat → Option (Node d V h)) p with
    | none => rw [hc] at hi; simp [indicesOpt] at hi
    | some c =>
      rw [hc] at hi
      obtain ⟨e, he, rfl⟩ := mem_indices.1 hi
      exact ⟨e, (mem_traverse_succ h n e).2 ⟨p, c, Finset.mem_range.1 hp, hc, he⟩, rfl⟩

theorem indices_nonempty : ∀ (h : Nat) (n : Node d V h), WF h n → (indices h n).Nonempty
  | 0, (l : Leaf d V), _ => ⟨l.index, by simp [indices, traverseNode]⟩
  | h + 1, n, hw => by
    obtain ⟨p, hp, hs⟩ := hw.1
    obtain ⟨c, hc⟩ := Option.isSome_iff_exists.1 hs
    obtain ⟨i, hi⟩ := indices_nonempty h c (hw.2 p c hc).1
    rw [indices_succ]
    exact ⟨i, Finset.mem_biUnion.2 ⟨p, Finset.mem_range.2 hp, by rw [hc]; exact hi⟩⟩

theorem ancestor_succ (h : Nat) (i : Idx d) : Spec.ancestor (h + 1) i = fun a => Spec.ancestor h i a / 2 := by
  funext a
  simp only [Spec.ancestor]
  rw [pow_succ, Int.ediv_ediv_of_nonneg (by positivity)]

theorem ancestor_le {h k : Nat} (hk : h ≤ k) {i j : Idx d} (e : Spec.ancestor h i = Spec.ancestor h j) : Spec.ancestor k i = Spec.ancestor k j := by
  induction k, hk using Nat.le_induction with
  | base => exact e
  | succ k _ ih => rw [ancestor_succ, ancestor_succ, ih]

/-- two indices in the same cube of level `h` go through the same child -/
theorem child_of_ancestor {h : Nat} {i j : Idx d} (e : Spec.ancestor h i = Spec.ancestor h j) : computeChildIdx i h = computeChildIdx j h := by
  rw [computeChildIdx_eq_iff]
  intro a
  rw [keyBit_eq_iff]
  have := congrFun e a
  simp only [Spec.ancestor] at this
  rw [this]

/-- conversely, indices in the same cube of level `h + 1` that go through the same child are in the same cube of level `h` -/
theorem ancestor_of_child {h : Nat} {i j : Idx d} (e : Spec.ancestor (h + 1) i = Spec.ancestor (h + 1) j) (c : computeChildIdx i h = computeChildIdx j h) :
    Spec.ancestor h i = Spec.ancestor h j := by
  rw [computeChildIdx_eq_iff] at c
  rw [ancestor_succ, ancestor_succ] at e
  funext a
  have h1 := (keyBit_eq_iff _ _ _).1 (c a)
  have h2 := congrFun e a
  simp only [Spec.ancestor] at h2 ⊢
  omega

theorem nodeCount_classes : ∀ (h : Nat) (n : Node d V h), WF h n →
    (∀ i ∈ indices h n, ∀ j ∈ indices h n, Spec.ancestor h i = Spec.ancestor h j) →
    nodeCount h n = ∑ k ∈ Finset.range (h + 1), ((indices h n).image (Spec.ancestor k)).card
  | 0, (l : Leaf d V), _, _ => by simp [nodeCount, indices, traverseNode]
  | h + 1, n, hw, ha => by
    have hchild : ∀ p, ∀ i ∈ indicesOpt h ((n : Nat → Option (Node d V h)) p), i ∈ indices (h + 1) n ∧ computeChildIdx i h = p := by
      intro p i hi
      cases hc : (n : Nat → Option (Node d V h)) p with
      | none => rw [hc] at hi; simp [indicesOpt] at hi
      | some c =>
        rw [hc] at hi
        obtain ⟨h1, h2, h3⟩ := hw.2 p c hc
        obtain ⟨e, he, rfl⟩ := mem_indices.1 hi
        refine ⟨?_, h3 e he⟩
        rw [indices_succ]
        exact Finset.mem_biUnion.2 ⟨p, Finset.mem_range.2 h2, by rw [hc]; exact hi⟩
    have hlow : ∀ k ∈ Finset.range (h + 1), ((indices (h + 1) n).image (Spec.ancestor k)).card =
        ∑ p ∈ Finset.range (2 ^ d), ((indicesOpt h ((n : Nat → Option (Node d V h)) p)).image (Spec.ancestor k)).card := by
      intro k hk
      rw [indices_succ, Finset.biUnion_image]
      refine Finset.card_biUnion ?_
      intro p _ q _ hpq
      refine Finset.disjoint_left.2 ?_
      intro x hx hy
      obtain ⟨i, hi, rfl⟩ := Finset.mem_image.1 hx
      obtain ⟨j, hj, hij⟩ := Finset.mem_image.1 hy
      have := child_of_ancestor (ancestor_le (by have := Finset.mem_range.1 hk; omega) hij : Spec.ancestor h j = Spec.ancestor h i)
      rw [(hchild p i hi).2, (hchild q j hj).2] at this
      exact hpq this.symm
    have htop : ((indices (h + 1) n).image (Spec.ancestor (h + 1))).card = 1 := by
      rw [Finset.card_eq_one]
      obtain ⟨i, hi⟩ := indices_nonempty (h + 1) n hw
      refine ⟨Spec.ancestor (h + 1) i, ?_⟩
      ext x
      rw [Finset.mem_image, Finset.mem_singleton]
      constructor
      · rintro ⟨j, hj, rfl⟩; exact ha j hj i hi
      · rintro rfl; exact ⟨i, hi, rfl⟩
    rw [Finset.sum_range_succ, htop, Finset.sum_congr rfl hlow, Finset.sum_comm, nodeCount_succ, add_comm, ← List.sum_toFinset _ List.nodup_range, List.toFinset_range]
    congr 1
    refine Finset.sum_congr rfl fun p _ => ?_
    cases hc : (n : Nat → Option (Node d V h)) p with
    | none => simp [countOpt, indicesOpt]
    | some c =>
      simp only [countOpt, indicesOpt]
      refine nodeCount_classes h c (hw.2 p c hc).1 ?_
      intro i hi j hj
      have h1 := hchild p i (by rw [hc]; exact hi)
      have h2 := hchild p j (by rw [hc]; exact hj)
      exact ancestor_of_child (ha i h1.1 j h2.1) (h1.2.trans h2.2.symm)

/-- bytes of any well-formed octree, in terms of the set of stored indices -/
theorem byteSize_treeBytes (sz : Sizes V) (t : Tree d V) (ht : TInv t) (hn : (t.traverse.map Prod.fst).Nodup) (S : Finset (Idx d))
    (hS : ∀ i, i ∈ S ↔ ∃ v, (i, v) ∈ t.traverse) (data : Idx d → Nat) (hd : ∀ e ∈ t.traverse, data e.1 = sz.data e.2) :
    t.byteSize sz = Spec.treeBytes sz.this sz.node sz.ptr sz.index data S := by
  have hSe : S = (t.traverse.map Prod.fst).toFinset := by
    ext i; rw [hS]; simp
  have hsum : ∑ i ∈ S, (sz.index + data i) = leafBytes sz t.traverse := by
    rw [hSe, List.sum_toFinset _ hn, leafBytes, List.map_map]
    congr 1
    refine List.map_congr_left fun e he => ?_
    simp [hd e he]
  have hcard : S.card = t.traverse.length := by
    rw [hSe, List.toFinset_card_of_nodup hn, List.length_map]
  unfold Spec.treeBytes
  rw [hsum, hcard]
  unfold Tree.byteSize
  cases hr : t.root with
  | none =>
    have : t.traverse = [] := by unfold Tree.traverse; rw [hr]
    rw [this] at hSe ⊢
    subst hSe
    simp [leafBytes, Spec.octreeNodes]
  | some n =>
    have htr : t.traverse = traverseNode treeDepth n := by unfold Tree.traverse; rw [hr]
    have hcount : nodeCount treeDepth n = Spec.octreeNodes S := by
      rw [nodeCount_classes treeDepth n (ht.1 n hr), hSe, htr]
      · rfl
      · intro i hi j hj
        obtain ⟨e, he, rfl⟩ := mem_indices.1 hi
        obtain ⟨f, hf, rfl⟩ := mem_indices.1 hj
        funext a
        have h1 := ht.2 e (htr ▸ he) a
        have h2 := ht.2 f (htr ▸ hf) a
        simp only [Spec.ancestor, treeDepth]
        omega
    simp only
    rw [(byteSizeNode_eq sz _ n 0 (ht.1 n hr)).1, hcount, htr]
    omega

end Octree

namespace Spec
variable {d : Nat}

theorem octreeNodes_split (S : Finset (Fin d → Int)) : octreeNodes S = S.card + ∑ h ∈ Finset.range 16, (S.image (ancestor (h + 1))).card := by
  unfold octreeNodes
  rw [Finset.sum_range_succ', add_comm]
  congr 1
  refine Finset.card_image_of_injective _ ?_
  intro i j e
  funext a
  have := congrFun e a
  simp only [ancestor] at this
  omega

theorem treeBytes_mono (this node ptr index : Nat) (data data' : (Fin d → Int) → Nat) (S S' : Finset (Fin d → Int)) (h : S ⊆ S') (hd : ∀ i ∈ S, data i ≤ data' i) :
    treeBytes this node ptr index data S ≤ treeBytes this node ptr index data' S' := by
  have hc : ∑ h ∈ Finset.range 16, (S.image (ancestor (h + 1))).card ≤ ∑ h ∈ Finset.range 16, (S'.image (ancestor (h + 1))).card :=
    Finset.sum_le_sum fun k _ => Finset.card_le_card (Finset.image_subset_image h)
  have hcard := Finset.card_le_card h
  have hn : octreeNodes S ≤ octreeNodes S' := by rw [octreeNodes_split, octreeNodes_split]; omega
  have hi : octreeNodes S - S.card ≤ octreeNodes S' - S'.card := by rw [octreeNodes_split, octreeNodes_split]; omega
  have hs : ∑ i ∈ S, (index + data i) ≤ ∑ i ∈ S', (index + data' i) :=
    (Finset.sum_le_sum fun i hi => Nat.add_le_add_left (hd i hi) index).trans (Finset.sum_le_sum_of_subset h)
  unfold treeBytes
  gcongr

/-- at most `1 + 16 |S|` nodes, at most `1 + 15 |S|` (plus the leaves) of them above the leaves -/
theorem treeBytes_le (this node ptr index m : Nat) (data : (Fin d → Int) → Nat) (S : Finset (Fin d → Int)) (hS : ∀ i ∈ S, InRange i) (hd : ∀ i ∈ S, data i ≤ m) :
    treeBytes this node ptr index data S ≤ this + (node + 2 ^ d * ptr) + S.card * (16 * node + 15 * (2 ^ d * ptr) + (index + m)) := by
  have h1 : ∑ h ∈ Finset.range 16, (S.image (ancestor (h + 1))).card ≤ 15 * S.card + 1 := by
    rw [Finset.sum_range_succ]
    have h2 : (S.image (ancestor (15 + 1))).card ≤ 1 := by
      rw [Finset.card_le_one]
      intro a ha b hb
      obtain ⟨i, hi, rfl⟩ := Finset.mem_image.1 ha
      obtain ⟨j, hj, rfl⟩ := Finset.mem_image.1 hb
      funext x
      have := hS i hi x
      have := hS j hj x
      simp only [ancestor]
      omega
    have h3 : ∑ h ∈ Finset.range 15, (S.image (ancestor (h + 1))).card ≤ 15 * S.card := by
      calc _ ≤ ∑ h ∈ Finset.range 15, S.card := Finset.sum_le_sum (fun h _ => Finset.card_image_le)
        _ = 15 * S.card := by simp
    omega
  have h4 : ∑ i ∈ S, (index + data i) ≤ S.card * (index + m) := by
    rw [← smul_eq_mul]
    exact Finset.sum_le_card_nsmul _ _ _ fun i hi => Nat.add_le_add_left (hd i hi) index
  have hn : octreeNodes S ≤ 1 + 16 * S.card := by rw [octreeNodes_split]; omega
  have hi : octreeNodes S - S.card ≤ 1 + 15 * S.card := by rw [octreeNodes_split]; omega
  have e1 := Nat.mul_le_mul_right node hn
  have e2 := Nat.mul_le_mul_right (2 ^ d * ptr) hi
  unfold treeBytes
  nlinarith

end Spec
end Ndt
