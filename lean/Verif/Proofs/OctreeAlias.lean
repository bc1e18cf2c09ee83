import Verif.Proofs.Octree

/-! Traversal of an octree after a history of inserts over arbitrary (possibly aliasing) indices. -/

namespace Ndt.Octree

variable {d : Nat} {V : Type}

theorem entriesOpt_childrenOf (h : Nat) (o : Option (Node d V (h + 1))) (e : Idx d × V) :
    e ∈ entriesOpt (h + 1) o ↔ ∃ p, p < 2 ^ d ∧ e ∈ entriesOpt h (childrenOf o p) := by
  cases o with
  | none => simp [entriesOpt, childrenOf]
  | some n =>
    show e ∈ traverseNode (h + 1) n ↔ _
    rw [mem_traverse_succ]
    constructor
    · rintro ⟨p, c, hp, hc, he⟩
      refine ⟨p, hp, ?_⟩
      show e ∈ entriesOpt h ((n : Nat → Option (Node d V h)) p)
      rw [hc]; exact he
    · rintro ⟨p, hp, he⟩
      have he' : e ∈ entriesOpt h ((n : Nat → Option (Node d V h)) p) := he
      cases hc : (n : Nat → Option (Node d V h)) p with
      | none => rw [hc] at he'; cases he'
      | some c => rw [hc] at he'; exact ⟨p, c, hp, hc, he'⟩

/-- the indices in the tree after an insert: a new one only if no index of its class was there -/
theorem keys_insertNode (merge : V → V → V) (i j : Idx d) (v : V) : ∀ (h : Nat) (o : Option (Node d V h)),
    (∃ w, (j, w) ∈ entriesOpt h (some (insertNode merge i v h o).1)) ↔ (∃ w, (j, w) ∈ entriesOpt h o) ∨ (j = i ∧ getOpt i h o = none)
  | 0, none => by
    simp [entriesOpt, insertNode, traverseNode, getOpt]
  | 0, some l => by
    simp [entriesOpt, insertNode, traverseNode, getOpt, getNode]
  | h + 1, o => by
    have ih := keys_insertNode merge i j v h (childrenOf o (computeChildIdx i h))
    have hpos := computeChildIdx_lt i h
    have hr : ∀ p, childrenOf (some (insertNode merge i v (h + 1) o).1) p =
        if p = computeChildIdx i h then some (insertNode merge i v h (childrenOf o (computeChildIdx i h))).1 else childrenOf o p := by
      intro p
      show Function.update _ _ _ p = _
      rw [Function.update_apply]
    rw [getOpt_childrenOf]
    simp only [entriesOpt_childrenOf, hr]
    constructor
    · rintro ⟨w, p, hp, he⟩
      by_cases e : p = computeChildIdx i h
      · rw [if_pos e] at he
        rcases ih.1 ⟨w, he⟩ with ⟨w', h1⟩ | h1
        · exact Or.inl ⟨w', _, hpos, h1⟩
        · exact Or.inr h1
      · rw [if_neg e] at he
        exact Or.inl ⟨w, p, hp, he⟩
    · rintro (⟨w, p, hp, he⟩ | h1)
      · by_cases e : p = computeChildIdx i h
        · rw [e] at he
          obtain ⟨w', h2⟩ := ih.2 (Or.inl ⟨w, he⟩)
          exact ⟨w', _, hpos, by rw [if_pos rfl]; exact h2⟩
        · exact ⟨w, p, hp, by rw [if_neg e]; exact he⟩
      · obtain ⟨w', h2⟩ := ih.2 (Or.inr h1)
        exact ⟨w', _, hpos, by rw [if_pos rfl]; exact h2⟩

theorem stored_eq_none (merge : V → V → V) (same : Idx d → Idx d → Bool) (hist : List (Idx d × V)) (j : Idx d) :
    Spec.stored merge same hist j = none ↔ hist.find? (fun e => same e.1 j) = none := by
  induction hist using List.reverseRecOn with
  | nil => exact iff_of_true rfl rfl
  | append_singleton hist e ih =>
    rw [stored_concat, List.find?_append]
    by_cases h : same e.1 j = true
    · rw [if_pos h]
      simp [h]
    · rw [if_neg h, ih]
      simp [h]

theorem keys_run (merge : V → V → V) (g : Nat) (hist : List (Idx d × V)) (j : Idx d) :
    (∃ w, (j, w) ∈ (run merge g hist).traverse) ↔ (hist.find? (fun e => sameKey e.1 j)).map Prod.fst = some j := by
  induction hist using List.reverseRecOn with
  | nil => simp [run, Tree.traverse, Tree.empty]
  | append_singleton hist e ih =>
    obtain ⟨i, v⟩ := e
    rw [traverse_eq_entries] at ih
    rw [run_concat, traverse_eq_entries]
    have := keys_insertNode merge i j v treeDepth (run merge g hist).root
    refine this.trans ?_
    rw [ih, ← Tree.get_eq, get_run, stored_eq_none, List.find?_append]
    have hrefl : sameKey i i = true := (sameKey_iff i i).2 (SamePath.refl _ _)
    cases hf : hist.find? (fun e => sameKey e.1 j) with
    | some x =>
      simp only [Option.map_some, Option.some_or]
      constructor
      · rintro (h | ⟨rfl, h⟩)
        · exact h
        · rw [hf] at h; cases h
      · exact Or.inl
    | none =>
      simp only [Option.map_none, Option.none_or, List.find?_cons, List.find?_nil, reduceCtorEq, false_or]
      constructor
      · rintro ⟨rfl, _⟩
        rw [hrefl]; rfl
      · intro h
        cases hs : sameKey i j with
        | false => rw [hs] at h; simp at h
        | true =>
          rw [hs] at h
          have : i = j := by simpa using h
          subst this
          exact ⟨rfl, hf⟩

theorem mem_traverse_any (merge : V → V → V) (g : Nat) (hist : List (Idx d × V)) (j : Idx d) (v : V) :
    (j, v) ∈ (run merge g hist).traverse ↔ (hist.find? (fun e => sameKey e.1 j)).map Prod.fst = some j ∧ Spec.stored merge sameKey hist j = some v := by
  have hget : ∀ w, (j, w) ∈ (run merge g hist).traverse → (run merge g hist).get j = some w := by
    intro w hw
    rw [Tree.get_eq]
    rw [traverse_eq_entries] at hw
    cases hroot : (run merge g hist).root with
    | none => rw [hroot] at hw; cases hw
    | some n =>
      rw [hroot] at hw
      exact getNode_of_mem treeDepth n (wf_run merge g hist n hroot) _ hw
  rw [← keys_run merge g, ← get_run merge g]
  constructor
  · intro h; exact ⟨⟨v, h⟩, hget v h⟩
  · rintro ⟨⟨w, hw⟩, h⟩
    rw [← Option.some.inj ((hget w hw).symm.trans h)]; exact hw

end Ndt.Octree
