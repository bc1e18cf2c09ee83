import Verif.Model.Backend
import Verif.Proofs.Octree
import Mathlib.Data.List.Pairwise

namespace Ndt

/-! ### boxes -/

theorem mem_boxList : ∀ {d : Nat} (lo : Idx d) (sz : Fin d → Nat) (i : Idx d),
    i ∈ boxList lo sz ↔ ∀ a, lo a ≤ i a ∧ i a < lo a + sz a
  | 0, _, _, i => by
    simp only [boxList, List.mem_singleton]
    exact ⟨fun _ a => a.elim0, fun _ => funext fun a => a.elim0⟩
  | d + 1, lo, sz, i => by
    simp only [boxList, List.mem_flatMap, List.mem_range, List.mem_map]
    constructor
    · rintro ⟨k, hk, t, ht, rfl⟩ a
      rw [mem_boxList] at ht
      refine Fin.cases ?_ (fun b => ?_) a
      · simp only [Fin.cons_zero]; omega
      · simpa using ht b
    · intro h
      have h0 := h 0
      refine ⟨(i 0 - lo 0).toNat, by omega, Fin.tail i, ?_, ?_⟩
      · rw [mem_boxList]; intro a; exact h a.succ
      · have : lo 0 + ((i 0 - lo 0).toNat : Int) = i 0 := by omega
        rw [this]; exact Fin.cons_self_tail i

theorem nodup_boxList : ∀ {d : Nat} (lo : Idx d) (sz : Fin d → Nat), (boxList lo sz).Nodup
  | 0, _, _ => by simp [boxList]
  | d + 1, lo, sz => by
    simp only [boxList]
    rw [List.nodup_flatMap]
    constructor
    · intro k _
      refine (nodup_boxList _ _).map ?_
      intro x y h
      exact (Fin.cons_injective2 h).2
    · refine List.pairwise_lt_range.imp ?_
      intro a b hab
      simp only [Function.onFun, List.disjoint_left, List.mem_map]
      rintro x ⟨t, _, rfl⟩ ⟨t', _, h⟩
      have := (Fin.cons_injective2 h).1
      omega

theorem lexLt_irrefl : ∀ {d : Nat} (i : Idx d), lexLt i i = false
  | 0, _ => rfl
  | d + 1, i => by simp [lexLt, lexLt_irrefl]

theorem lexLt_trans : ∀ {d : Nat} (i j k : Idx d), lexLt i j = true → lexLt j k = true → lexLt i k = true
  | 0, _, _, _, h, _ => by simp [lexLt] at h
  | d + 1, i, j, k, h1, h2 => by
    simp only [lexLt, Bool.or_eq_true, Bool.and_eq_true, decide_eq_true_eq] at *
    rcases h1 with h1 | ⟨h1, h1'⟩ <;> rcases h2 with h2 | ⟨h2, h2'⟩
    · left; omega
    · left; omega
    · left; omega
    · right; exact ⟨by omega, lexLt_trans _ _ _ h1' h2'⟩

theorem lexLt_total : ∀ {d : Nat} (i j : Idx d), lexLt i j = true ∨ i = j ∨ lexLt j i = true
  | 0, i, j => Or.inr (Or.inl (funext fun a => a.elim0))
  | d + 1, i, j => by
    simp only [lexLt, Bool.or_eq_true, Bool.and_eq_true, decide_eq_true_eq]
    rcases lt_trichotomy (i 0) (j 0) with h | h | h
    · left; left; exact h
    · rcases lexLt_total (fun a => i a.succ) (fun a => j a.succ) with g | g | g
      · left; right; exact ⟨h, g⟩
      · right; left; funext a; exact Fin.cases h (fun b => congrFun g b) a
      · right; right; right; exact ⟨h.symm, g⟩
    · right; right; left; exact h

/-! ### octree -/

namespace Octree
variable {d : Nat} {V : Type}

/-- invariant of octrees whose indices are in range -/
def TInv (t : Tree d V) : Prop := (∀ n, t.root = some n → WF treeDepth n) ∧ ∀ e ∈ t.traverse, Spec.InRange e.1

theorem traverse_modifyNode_fst (f : V → V) (i : Idx d) : ∀ (h : Nat) (n : Node d V h),
    (traverseNode h (modifyNode f i h n)).map Prod.fst = (traverseNode h n).map Prod.fst
  | 0, _ => rfl
  | h + 1, n => by
    rw [modifyNode]
    cases hc : childrenOf (some n) (computeChildIdx i h) with
    | none => rfl
    | some c =>
      simp only [traverseNode, List.map_flatMap]
      congr 1
      funext p
      by_cases e : p = computeChildIdx i h
      · subst e
        rw [Function.update_self]
        change _ = List.map Prod.fst (match childrenOf (some n) (computeChildIdx i h) with
          | none => [] | some c => traverseNode h c)
        rw [hc]
        exact traverse_modifyNode_fst f i h c
      · rw [Function.update_of_ne e]
        rfl

theorem WF_modifyNode (f : V → V) (i : Idx d) : ∀ (h : Nat) (n : Node d V h), WF h n → WF h (modifyNode f i h n)
  | 0, _, _ => trivial
  | h + 1, n, hw => by
    rw [modifyNode]
    cases hc : childrenOf (some n) (computeChildIdx i h) with
    | none => exact hw
    | some c =>
      refine ⟨⟨computeChildIdx i h, computeChildIdx_lt i h, by simp⟩, ?_⟩
      intro p c' hc'
      by_cases e : p = computeChildIdx i h
      · subst e
        simp only [Function.update_self, Option.some.injEq] at hc'
        subst hc'
        obtain ⟨h1, h2, h3⟩ := hw.2 _ c hc
        refine ⟨WF_modifyNode f i h c h1, h2, ?_⟩
        intro x hx
        have : x.1 ∈ (traverseNode h c).map Prod.fst := by
          rw [← traverse_modifyNode_fst f i h c]; exact List.mem_map.2 ⟨x, hx, rfl⟩
        obtain ⟨y, hy, hyx⟩ := List.mem_map.1 this
        rw [← hyx]; exact h3 y hy
      · simp only [Function.update_of_ne e] at hc'
        exact hw.2 p c' hc'

open Classical in
theorem getNode_modifyNode (f : V → V) (i j : Idx d) : ∀ (h : Nat) (n : Node d V h),
    getNode j h (modifyNode f i h n) = if SamePath h i j then (getNode i h n).map f else getNode j h n
  | 0, l => by
    have : SamePath 0 i j := fun l hl => absurd hl (Nat.not_lt_zero l)
    simp [this, modifyNode, getNode]
  | h + 1, n => by
    rw [modifyNode, samePath_succ]
    cases hc : childrenOf (some n) (computeChildIdx i h) with
    | none =>
      simp only
      by_cases e : computeChildIdx i h = computeChildIdx j h
      · rw [getNode_succ j, getNode_succ i, ← e]
        have hc' : (n : Nat → Option (Node d V h)) (computeChildIdx i h) = none := hc
        rw [hc']; simp [getOpt]
      · simp [e]
    | some c =>
      simp only
      have hc' : (n : Nat → Option (Node d V h)) (computeChildIdx i h) = some c := hc
      have e1 := getNode_succ j h (Function.update (childrenOf (some n)) (computeChildIdx i h) (some (modifyNode f i h c)))
      refine e1.trans ?_
      rw [getNode_succ j, getNode_succ i, hc']
      by_cases e : computeChildIdx i h = computeChildIdx j h
      · rw [← e, Function.update_self, hc']
        simp only [getOpt, Option.bind_some]
        rw [getNode_modifyNode f i j h c]
        simp
      · rw [Function.update_of_ne (fun x => e x.symm)]
        simp only [e, false_and, if_false]
        rfl

theorem TInv.insert (t : Tree d V) (merge : V → V → V) (i : Idx d) (v : V) (ht : TInv t) (hi : Spec.InRange i) :
    TInv (t.insert merge i v) := by
  refine ⟨?_, ?_⟩
  · intro n h
    simp only [Tree.insert, Option.some.injEq] at h
    subst h
    exact WF_insertNode _ _ _ _ _ ht.1
  · intro e he
    simp only [Tree.traverse, Tree.insert] at he
    rcases traverse_insertNode_fst _ _ _ _ _ e he with h1 | ⟨n, hn, w, hw⟩
    · rw [h1]; exact hi
    · exact ht.2 (e.1, w) (by simp only [Tree.traverse, hn]; exact hw)

theorem TInv.modify (t : Tree d V) (f : V → V) (i : Idx d) (ht : TInv t) : TInv (t.modify f i) := by
  cases hr : t.root with
  | none =>
    refine ⟨?_, ?_⟩
    · intro n h; simp [Tree.modify, hr] at h
    · intro e he; simp [Tree.modify, Tree.traverse, hr] at he
  | some n =>
    refine ⟨?_, ?_⟩
    · intro m h
      simp only [Tree.modify, hr, Option.map_some, Option.some.injEq] at h
      subst h
      exact WF_modifyNode f i _ n (ht.1 n hr)
    · intro e he
      simp only [Tree.traverse, Tree.modify, hr, Option.map_some] at he
      have : e.1 ∈ (traverseNode treeDepth n).map Prod.fst := by
        rw [← traverse_modifyNode_fst f i]; exact List.mem_map.2 ⟨e, he, rfl⟩
      obtain ⟨y, hy, hye⟩ := List.mem_map.1 this
      rw [← hye]
      exact ht.2 y (by simp only [Tree.traverse, hr]; exact hy)

theorem Tree.get_modify (t : Tree d V) (f : V → V) (i j : Idx d) :
    (t.modify f i).get j = if sameKey i j then (t.get i).map f else t.get j := by
  classical
  simp only [Tree.get_eq, Tree.modify]
  cases t.root with
  | none => simp [getOpt]
  | some n =>
    exact (getNode_modifyNode f i j treeDepth n).trans (by simp only [sameKey_iff]; rfl)

theorem TInv.mem_traverse (t : Tree d V) (ht : TInv t) (i : Idx d) (v : V) :
    (i, v) ∈ t.traverse ↔ Spec.InRange i ∧ t.get i = some v := by
  obtain ⟨h1, h2⟩ := ht
  constructor
  · intro h
    have hi := h2 _ h
    refine ⟨hi, ?_⟩
    rw [Tree.get_eq]
    unfold Tree.traverse at h
    cases hr : t.root with
    | none => rw [hr] at h; simp at h
    | some n => rw [hr] at h; exact getNode_of_mem _ n (h1 n hr) _ h
  · rintro ⟨hi, h⟩
    rw [Tree.get_eq] at h
    cases hr : t.root with
    | none => rw [hr] at h; simp [getOpt] at h
    | some n =>
      rw [hr] at h
      obtain ⟨k, hs, hk⟩ := exists_of_getNode _ n (h1 n hr) i v h
      have hm : (k, v) ∈ t.traverse := by simp only [Tree.traverse, hr]; exact hk
      have := (samePath_inRange (h2 _ hm) hi).1 hs
      exact this ▸ hm

theorem TInv.sorted (t : Tree d V) (ht : TInv t) : t.traverse.Pairwise (fun a b => PathLt treeDepth a.1 b.1) := by
  unfold Tree.traverse
  cases h : t.root with
  | none => simp
  | some n => exact Octree.traverse_sorted _ n (ht.1 n h)

theorem TInv.empty (g : Nat) : TInv (Tree.empty g : Tree d V) := by
  refine ⟨?_, ?_⟩
  · intro n h; cases h
  · intro e he; simp [Tree.traverse, Tree.empty] at he

end Octree

open Octree in
theorem octree_look {d : Nat} {V : Type} (t : (octreeBackend d).Store V) (i : Idx d) :
    (octreeBackend d).look t i = if Spec.InRange i then Octree.Tree.get t i else none := by
  unfold Backend.look
  by_cases h : Spec.InRange i
  · rw [if_pos h, if_pos (decide_eq_true h)]
  · rw [if_neg h, if_neg]
    intro hc; exact h (of_decide_eq_true hc)

open Octree in
/-- The octree satisfies the storage laws. -/
def octreeLawful (d : Nat) : (octreeBackend d).Lawful where
  Inv := fun t => TInv t
  inv_insert := fun s i v h hi => TInv.insert s _ i v h (of_decide_eq_true hi)
  inv_modify := fun s i f h _ => TInv.modify s f i h
  ok_insert := fun _ _ _ _ => rfl
  ok_modify := fun _ _ _ _ => rfl
  look_insert := by
    intro V s i j v h hi hn
    have hi' : Spec.InRange i := of_decide_eq_true hi
    rw [octree_look, if_pos hi'] at hn
    rw [octree_look, octree_look]
    by_cases hj : Spec.InRange j
    · rw [if_pos hj, if_pos hj]
      refine (Tree.get_insert _ s i j v).trans ?_
      rw [hn]
      by_cases e : j = i
      · subst e; simp [sameKey]
      · have : ¬ sameKey i j = true := by
          rw [sameKey_iff, samePath_inRange hi' hj]; exact fun x => e x.symm
        simp [this, e]
    · have e : j ≠ i := by rintro rfl; exact hj hi'
      rw [if_neg hj, if_neg hj, if_neg e]
  look_modify := by
    intro V s i j f h hi
    have hi' : Spec.InRange i := of_decide_eq_true hi
    rw [octree_look, octree_look, octree_look, if_pos hi']
    by_cases hj : Spec.InRange j
    · rw [if_pos hj, if_pos hj]
      refine (Tree.get_modify s f i j).trans ?_
      by_cases e : j = i
      · subst e; simp [sameKey]
      · have : ¬ sameKey i j = true := by
          rw [sameKey_iff, samePath_inRange hi' hj]; exact fun x => e x.symm
        simp [this, e]
    · have e : j ≠ i := by rintro rfl; exact hj hi'
      rw [if_neg hj, if_neg hj, if_neg e]
  mem_traverse := by
    intro V s h i v
    rw [octree_look]
    refine (TInv.mem_traverse s h i v).trans ?_
    by_cases hi : Spec.InRange i
    · rw [if_pos hi]; exact ⟨fun x => x.2, fun x => ⟨hi, x⟩⟩
    · rw [if_neg hi]; exact ⟨fun x => absurd x.1 hi, fun x => by cases x⟩
  nodup_traverse := by
    intro V s h
    rw [List.Nodup, List.pairwise_map]
    refine (TInv.sorted s h).imp ?_
    intro a b hab e
    exact pathLt_irrefl _ _ _ (e ▸ SamePath.refl _ _) hab

theorem array_look {d : Nat} {V : Type} (s : (arrayBackend d).Store V) (i : Idx d) :
    (arrayBackend d).look s i = if Arr.InBox s i then Arr.cells s i else none := by
  unfold Backend.look
  by_cases h : Arr.InBox s i
  · rw [if_pos h, if_pos (decide_eq_true h)]
  · rw [if_neg h, if_neg]
    intro hc; exact h (of_decide_eq_true hc)

/-- The array satisfies the storage laws. -/
def arrayLawful (d : Nat) : (arrayBackend d).Lawful where
  Inv := fun _ => True
  inv_insert := fun _ _ _ _ _ => trivial
  inv_modify := fun _ _ _ _ _ => trivial
  ok_insert := fun _ _ _ _ => rfl
  ok_modify := fun _ _ _ _ => rfl
  look_insert := by
    intro V s i j v _ hi hn
    have hi' : Arr.InBox s i := of_decide_eq_true hi
    rw [array_look, array_look]
    change (if Arr.InBox s j then (if j = i then some v else s.cells j) else none) = _
    by_cases e : j = i
    · subst e; rw [if_pos hi']; simp
    · rw [if_neg e, if_neg e]
  look_modify := by
    intro V s i j f _ hi
    have hi' : Arr.InBox s i := of_decide_eq_true hi
    rw [array_look, array_look, array_look]
    change (if Arr.InBox s j then (if j = i then (s.cells i).map f else s.cells j) else none) = _
    by_cases e : j = i
    · subst e; rw [if_pos hi', if_pos hi']
    · rw [if_neg e, if_neg e]
  mem_traverse := by
    intro V s _ i v
    rw [array_look]
    change (i, v) ∈ (boxList s.offset s.size).filterMap (fun i => (s.cells i).map (fun v => (i, v))) ↔ _
    simp only [List.mem_filterMap, mem_boxList]
    constructor
    · rintro ⟨j, hj, he⟩
      obtain ⟨w, hw, he⟩ := Option.map_eq_some_iff.1 he
      obtain ⟨rfl, rfl⟩ := Prod.mk.inj he
      rw [if_pos (show Arr.InBox s j from hj)]; exact hw
    · intro h
      by_cases hj : Arr.InBox s i
      · rw [if_pos hj] at h
        exact ⟨i, hj, by rw [h]; rfl⟩
      · rw [if_neg hj] at h; cases h
  nodup_traverse := by
    intro V s _
    change (((boxList s.offset s.size).filterMap (fun i => (s.cells i).map (fun v => (i, v)))).map Prod.fst).Nodup
    rw [List.map_filterMap]
    have : (fun i => Option.map Prod.fst (Option.map (fun v => (i, v)) (s.cells i))) =
        fun i => if (s.cells i).isSome then some i else none := by
      funext i; cases s.cells i <;> rfl
    rw [this]
    refine (nodup_boxList s.offset s.size).filterMap ?_
    intro a a' b hb hb'
    simp only [Option.mem_def] at hb hb'
    split at hb <;> split at hb' <;> simp_all

end Ndt
