import Verif.Proofs.Octree
import Verif.Proofs.OctreeAlias
import Mathlib.Data.Fin.VecNotation
import Mathlib.Tactic.FinCases
import Mathlib.Tactic.NormNum
import Mathlib.Algebra.Order.BigOperators.Group.Finset

/-!
# C05–C09: the octree storage backend

`Octree.run merge g hist` is the octree after the history `hist` of `insert(index, value)` calls on a default-constructed
object, `g` being the indeterminate initial value of its size counter.
-/

namespace Ndt
open Octree

variable {d : Nat} {V : Type}

/-- **C05.** After any history of in-range inserts, `get j` (for in-range `j`) is null iff `j` was never inserted, and otherwise the first value
inserted at `j` merged with the later ones, in order. -/
theorem C05_octree_refines_finite_map (merge : V → V → V) (g : Nat) (hist : List (Idx d × V))
    (hr : ∀ e ∈ hist, Spec.InRange e.1) (j : Idx d) (hj : Spec.InRange j) :
    (run merge g hist).get j = Spec.stored merge (fun a b => decide (a = b)) hist j := by
  rw [get_run]
  unfold Spec.stored
  have : hist.filter (fun e => sameKey e.1 j) = hist.filter (fun e => decide (e.1 = j)) := by
    apply List.filter_congr
    intro e he
    rw [Bool.eq_iff_iff, sameKey_iff, samePath_inRange (hr e he) hj, decide_eq_true_eq]
  rw [this]

/-- **C05** (reading): null exactly for the indices never inserted. -/
theorem C05_octree_get_none_iff (merge : V → V → V) (g : Nat) (hist : List (Idx d × V))
    (hr : ∀ e ∈ hist, Spec.InRange e.1) (j : Idx d) (hj : Spec.InRange j) :
    (run merge g hist).get j = none ↔ ∀ e ∈ hist, e.1 ≠ j := by
  rw [C05_octree_refines_finite_map merge g hist hr j hj]
  unfold Spec.stored
  constructor
  · intro h e he hej
    have hne : e.2 ∈ (hist.filter (fun x => decide (x.1 = j))).map Prod.snd :=
      List.mem_map.2 ⟨e, List.mem_filter.2 ⟨he, by simpa using hej⟩, rfl⟩
    cases hl : (hist.filter (fun x => decide (x.1 = j))).map Prod.snd with
    | nil => rw [hl] at hne; simp at hne
    | cons => simp only [hl] at h; cases h
  · intro h
    have : hist.filter (fun x => decide (x.1 = j)) = [] := by
      rw [List.filter_eq_nil_iff]; intro e he; simpa using h e he
    simp [this]

/-- Non-vacuity: extreme and negative indices of the range, a repeated index, a lookup that finds and one that does not. -/
example :
    let hist : List (Idx 2 × List Nat) := [(![-32768, 32767], [1]), (![0, -1], [2]), (![-32768, 32767], [3])]
    (∀ e ∈ hist, Spec.InRange e.1) ∧
    (run (· ++ ·) 7 hist).get ![-32768, 32767] = some [1, 3] ∧ (run (· ++ ·) 7 hist).get ![0, 0] = none := by
  have hr : ∀ e ∈ ([(![-32768, 32767], [1]), (![0, -1], [2]), (![-32768, 32767], [3])] : List (Idx 2 × List Nat)),
      Spec.InRange e.1 := by
    intro e he
    simp only [List.mem_cons, List.not_mem_nil, or_false] at he
    rcases he with rfl | rfl | rfl <;> intro a <;> fin_cases a <;> simp
  refine ⟨hr, ?_, ?_⟩
  · rw [C05_octree_refines_finite_map _ _ _ hr _ (hr _ (List.mem_cons_self ..))]; decide
  · rw [C05_octree_refines_finite_map _ _ _ hr _ (by intro a; fin_cases a <;> simp)]; decide

/-- **C06 is false**: the index (32768,0) is not inserted, but the octree returns the data of (-32768,0) for it, and inserting it merges into
the data of (-32768,0). -/
theorem C06_octree_alias_refuted :
    ¬ ∀ (d : Nat) (V : Type) (merge : V → V → V) (g : Nat) (hist : List (Idx d × V)) (j : Idx d),
        (∀ e ∈ hist, e.1 ≠ j) → (run merge g hist).get j = none := by
  intro h
  have := h 2 Nat (· + ·) 0 [(![-32768, 0], 5)] ![32768, 0] (by
    intro e he
    simp only [List.mem_cons, List.not_mem_nil, or_false] at he
    subst he
    intro hc
    have := congrFun hc 0
    simp at this)
  rw [get_run] at this
  revert this; decide

/-- **C06, what is true**: for histories over *all* integer indices, the octree is the finite map keyed by the index modulo 2^16 in every
coordinate. Two indices are confused iff all their coordinates agree modulo 65536; in particular never if both are in range. -/
theorem C06_octree_keys_partial (merge : V → V → V) (g : Nat) (hist : List (Idx d × V)) (j : Idx d) :
    (run merge g hist).get j = Spec.stored merge (fun a b => decide (∀ x, a x % 65536 = b x % 65536)) hist j :=
  get_run merge g hist j

theorem C06_octree_inrange_partial (merge : V → V → V) (g : Nat) (hist : List (Idx d × V))
    (i j : Idx d) (v : V) (hi : Spec.InRange i) (hj : Spec.InRange j) (hij : i ≠ j) :
    ((run merge g hist).insert merge i v).get j = (run merge g hist).get j := by
  rw [Tree.get_insert, if_neg]
  rw [sameKey_iff, samePath_inRange hi hj]
  exact hij

/-- **C06** (partial, traversal): for histories over *all* integer indices, `traverse` reports every class of confused indices once, under the index that was inserted first, with the
data merged from the whole class. -/
theorem C06_traverse_first_index_partial (merge : V → V → V) (g : Nat) (hist : List (Idx d × V)) (j : Idx d) (v : V) :
    (j, v) ∈ (run merge g hist).traverse ↔
      (hist.find? fun e => decide (∀ x, e.1 x % 65536 = j x % 65536)).map Prod.fst = some j ∧
      Spec.stored merge (fun a b => decide (∀ x, a x % 65536 = b x % 65536)) hist j = some v :=
  mem_traverse_any merge g hist j v

example : (![-32768, 0], 12) ∈ (run (· + ·) 0 [((![-32768, 0] : Idx 2), 5), (![32768, 0], 7)]).traverse ∧
    (![32768, 0], 12) ∉ (run (· + ·) 0 [((![-32768, 0] : Idx 2), 5), (![32768, 0], 7)]).traverse := by
  rw [C06_traverse_first_index_partial, C06_traverse_first_index_partial]
  decide

/-- **C07.** After any history of in-range inserts, `traverse` reports exactly the pairs `(index, get index)`. -/
theorem C07_traverse_complete (merge : V → V → V) (g : Nat) (hist : List (Idx d × V))
    (hr : ∀ e ∈ hist, Spec.InRange e.1) (j : Idx d) (v : V) :
    (j, v) ∈ (run merge g hist).traverse ↔
      Spec.InRange j ∧ Spec.stored merge (fun a b => decide (a = b)) hist j = some v := by
  constructor
  · intro h
    obtain ⟨w, hw⟩ := traverse_fst_mem merge g hist _ h
    have hj : Spec.InRange j := hr _ hw
    refine ⟨hj, ?_⟩
    rw [← C05_octree_refines_finite_map merge g hist hr j hj]
    exact (mem_traverse_run merge g hist hr j v hj).1 h
  · rintro ⟨hj, h⟩
    rw [← C05_octree_refines_finite_map merge g hist hr j hj] at h
    exact (mem_traverse_run merge g hist hr j v hj).2 h

/-- **C07.** No index is visited twice (this holds even without the range hypothesis). -/
theorem C07_traverse_once (merge : V → V → V) (g : Nat) (hist : List (Idx d × V)) :
    ((run merge g hist).traverse.map Prod.fst).Nodup := by
  rw [List.Nodup, List.pairwise_map]
  refine (Tree.traverse_sorted merge g hist).imp ?_
  intro a b h e
  exact pathLt_irrefl _ _ _ (e ▸ SamePath.refl _ _) h

/-- **C07.** The visiting order depends only on what is stored: two octrees (with whatever histories) that answer all in-range lookups alike
are traversed with exactly the same sequence of calls. -/
theorem C07_traverse_order_canonical (merge merge' : V → V → V) (g g' : Nat) (hist hist' : List (Idx d × V))
    (hr : ∀ e ∈ hist, Spec.InRange e.1) (hr' : ∀ e ∈ hist', Spec.InRange e.1)
    (h : ∀ j, Spec.InRange j → (run merge g hist).get j = (run merge' g' hist').get j) :
    (run merge g hist).traverse = (run merge' g' hist').traverse := by
  have hmem : ∀ e, e ∈ (run merge g hist).traverse ↔ e ∈ (run merge' g' hist').traverse := by
    rintro ⟨j, v⟩
    rw [C07_traverse_complete merge g hist hr, C07_traverse_complete merge' g' hist' hr']
    refine and_congr_right ?_
    intro hj
    rw [← C05_octree_refines_finite_map merge g hist hr j hj, ← C05_octree_refines_finite_map merge' g' hist' hr' j hj, h j hj]
  have hp : ((run merge g hist).traverse).Perm ((run merge' g' hist').traverse) :=
    (List.perm_ext_iff_of_nodup (List.Nodup.of_map _ (C07_traverse_once merge g hist))
      (List.Nodup.of_map _ (C07_traverse_once merge' g' hist'))).2 hmem
  refine List.Perm.eq_of_pairwise ?_ (Tree.traverse_sorted merge g hist) (Tree.traverse_sorted merge' g' hist') hp
  intro a b _ _ hab hba
  exact absurd hba (pathLt_asymm _ _ _ hab)

/-- Non-vacuity of C07: two insertion orders of three indices. -/
example :
    (run (fun a _ => a) 0 [((![5, -3] : Idx 2), 1), (![0, 0], 2), (![-32768, 32767], 3)]).traverse =
    (run (fun a _ => a) 9 [((![-32768, 32767] : Idx 2), 3), (![5, -3], 1), (![0, 0], 2)]).traverse := by
  have hr : ∀ (l : List (Idx 2 × Nat)), l.Perm [((![5, -3] : Idx 2), 1), (![0, 0], 2), (![-32768, 32767], 3)] →
      ∀ e ∈ l, Spec.InRange e.1 := by
    intro l hl e he
    have := hl.subset he
    simp only [List.mem_cons, List.not_mem_nil, or_false] at this
    rcases this with rfl | rfl | rfl <;> intro a <;> fin_cases a <;> simp
  have h1 := hr [((![5, -3] : Idx 2), 1), (![0, 0], 2), (![-32768, 32767], 3)] (List.Perm.refl _)
  have h2 := hr [((![-32768, 32767] : Idx 2), 3), (![5, -3], 1), (![0, 0], 2)] (by decide)
  apply C07_traverse_order_canonical _ _ _ _ _ _ h1 h2
  intro j hj
  rw [C05_octree_refines_finite_map _ _ _ h1 j hj, C05_octree_refines_finite_map _ _ _ h2 j hj]
  unfold Spec.stored
  simp only [List.filter_cons, List.filter_nil, decide_eq_true_eq]
  by_cases a : (![5, -3] : Idx 2) = j
  · subst a; decide
  · by_cases b : (![0, 0] : Idx 2) = j
    · subst b; decide
    · simp [a, b]

/-- **C08 is false**: after a single insert into a tree whose counter happens to start at 0, `size()` is 17, not 1. -/
theorem C08_size_refuted :
    ¬ ∀ (d : Nat) (V : Type) (merge : V → V → V) (g : Nat) (hist : List (Idx d × V)), (∀ e ∈ hist, Spec.InRange e.1) →
        (run merge g hist).size = (hist.map Prod.fst).toFinset.card := by
  intro h
  have hr : ∀ e ∈ [((![0, 0] : Idx 2), 5)], Spec.InRange e.1 := by
    intro e he
    simp only [List.mem_cons, List.not_mem_nil, or_false] at he
    subst he; intro a; fin_cases a <;> simp
  have := h 2 Nat (· + ·) 0 [(![0, 0], 5)] hr
  rw [size_run_spec _ _ _ hr] at this
  simp [Spec.octreeNodes] at this

/-- **C08, what `size()` really is**: the indeterminate initial value of the counter plus the number of tree nodes, i.e. one per level and non-empty
cube of that level. -/
theorem C08_size_is_node_count_partial (merge : V → V → V) (g : Nat) (hist : List (Idx d × V))
    (hr : ∀ e ∈ hist, Spec.InRange e.1) :
    (run merge g hist).size = g + Spec.octreeNodes (hist.map Prod.fst).toFinset :=
  size_run_spec merge g hist hr

/-- **C08, partial**: the counter never decreases, and it changes exactly when a new index is stored. -/
theorem C08_size_grows_iff_new_partial (merge : V → V → V) (g : Nat) (hist : List (Idx d × V))
    (hr : ∀ e ∈ hist, Spec.InRange e.1) (i : Idx d) (v : V) (hi : Spec.InRange i) :
    (run merge g hist).size ≤ ((run merge g hist).insert merge i v).size ∧
    (((run merge g hist).insert merge i v).size = (run merge g hist).size ↔ ∃ e ∈ hist, e.1 = i) := by
  refine ⟨Nat.le_add_right _ _, ?_⟩
  have h1 := (created_le merge i v treeDepth (run merge g hist).root).2
  have h2 := C05_octree_get_none_iff merge g hist hr i hi
  rw [Tree.get_eq] at h2
  simp only [Tree.insert]
  constructor
  · intro h
    by_contra hn
    have : ∀ e ∈ hist, e.1 ≠ i := fun e he hei => hn ⟨e, he, hei⟩
    have h3 := h1.1 (by omega)
    rw [h2.2 this] at h3
    cases h3
  · rintro ⟨e, he, hei⟩
    have : getOpt i treeDepth (run merge g hist).root ≠ none := fun hc => h2.1 hc e he hei
    have h3 := h1.2 (Option.isSome_iff_ne_none.2 this)
    omega

/-- **C09.** `byte_size()` is `sizeof(*this)` plus `sizeof(Node)` per node, a child-pointer array per inner node (all nodes that are not one of
the stored leaves), and the index and data of every stored entry. -/
theorem C09_byte_size (merge : V → V → V) (g : Nat) (hist : List (Idx d × V)) (hr : ∀ e ∈ hist, Spec.InRange e.1)
    (sz : Sizes V) :
    let S := (hist.map Prod.fst).toFinset
    (run merge g hist).byteSize sz =
      sz.this + Spec.octreeNodes S * sz.node + (Spec.octreeNodes S - S.card) * (2 ^ d * sz.ptr)
        + ((run merge g hist).traverse.map (fun e => sz.index + sz.data e.2)).sum := by
  intro S
  have hlen : (run merge g hist).traverse.length = S.card := by
    rw [← List.length_map (f := Prod.fst), ← List.toFinset_card_of_nodup (C07_traverse_once merge g hist)]
    congr 1
    ext i
    rw [List.mem_toFinset, List.mem_map, List.mem_toFinset, ← exists_entry_iff merge g hist hr i]
  have hsz := size_run_spec merge g hist hr
  rw [size_run] at hsz
  have hn : countOpt nodeCount treeDepth (run merge g hist).root = Spec.octreeNodes S := by
    change _ = Spec.octreeNodes (List.map Prod.fst hist).toFinset
    omega
  rw [← hlen, ← hn]
  unfold Octree.Tree.byteSize Octree.Tree.traverse
  cases h : (run merge g hist).root with
  | none => simp [countOpt]
  | some n =>
    simp only [countOpt]
    rw [(byteSizeNode_eq sz _ n 0 (wf_run merge g hist n h)).1]
    unfold leafBytes
    omega

/-- **C09.** The number of nodes is at most 1 + 16 times the number of stored indices. -/
theorem C09_node_bound (S : Finset (Idx d)) (hS : ∀ i ∈ S, Spec.InRange i) : Spec.octreeNodes S ≤ 1 + 16 * S.card := by
  unfold Spec.octreeNodes
  rw [Finset.sum_range_succ]
  have h1 : ∑ h ∈ Finset.range 16, (S.image (Spec.ancestor h)).card ≤ 16 * S.card := by
    calc _ ≤ ∑ h ∈ Finset.range 16, S.card := Finset.sum_le_sum (fun h _ => Finset.card_image_le)
      _ = 16 * S.card := by simp
  have h2 : (S.image (Spec.ancestor 16)).card ≤ 1 := by
    rw [Finset.card_le_one]
    intro a ha b hb
    obtain ⟨i, hi, rfl⟩ := Finset.mem_image.1 ha
    obtain ⟨j, hj, rfl⟩ := Finset.mem_image.1 hb
    funext x
    have := hS i hi x
    have := hS j hj x
    unfold Spec.ancestor
    omega
  omega

/-- Non-vacuity of C09: two neighbouring cells share all but the last two levels. -/
example : Spec.octreeNodes ({![0, 0], ![1, 0]} : Finset (Idx 2)) = 18 := by decide +kernel

end Ndt
