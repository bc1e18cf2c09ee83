import Verif.Model.Octree
import Verif.Spec.FiniteMap
import Mathlib.Tactic.Ring
import Mathlib.Tactic.Linarith
import Mathlib.Data.List.Basic
import Mathlib.Algebra.BigOperators.Group.Finset.Piecewise
import Mathlib.Data.List.Induction
import Mathlib.Algebra.BigOperators.Ring.List
import Mathlib.Data.Nat.Bitwise
import Mathlib.Data.List.Nodup
import Mathlib.Data.List.Sort
import Mathlib.Algebra.BigOperators.Group.List.Basic

namespace Ndt.Octree

variable {d : Nat} {V : Type}

/-! ### child indices -/

theorem foldl_bits_eq (l : List (Fin d)) (f : Fin d → Bool) (a : Nat) :
    l.foldl (fun pos i => if f i then pos + 1 <<< i.1 else pos) a =
      a + (l.map (fun i => if f i then 2 ^ i.1 else 0)).sum := by
  induction l generalizing a with
  | nil => simp
  | cons x xs ih =>
    simp only [List.foldl_cons, List.map_cons, List.sum_cons]
    rw [ih]
    by_cases h : f x <;> simp [h, Nat.one_shiftLeft]; omega

/-- sums of bits, by dimension -/
theorem bitsum_lt_inj : ∀ (d : Nat) (f g : Fin d → Bool),
    ((List.finRange d).map (fun i => if f i then 2 ^ i.1 else 0)).sum < 2 ^ d ∧
    (((List.finRange d).map (fun i => if f i then 2 ^ i.1 else 0)).sum =
      ((List.finRange d).map (fun i => if g i then 2 ^ i.1 else 0)).sum → f = g)
  | 0, f, g => ⟨by simp, fun _ => funext (fun i => i.elim0)⟩
  | d + 1, f, g => by
    have key : ∀ f : Fin (d + 1) → Bool,
        ((List.finRange (d + 1)).map (fun i => if f i then 2 ^ i.1 else 0)).sum =
        (if f 0 then 1 else 0) + 2 * ((List.finRange d).map (fun i => if f i.succ then 2 ^ i.1 else 0)).sum := by
      intro f
      rw [List.finRange_succ, List.map_cons, List.sum_cons, List.map_map, ← List.sum_map_mul_left]
      congr 2
      apply List.map_congr_left
      intro a _
      simp only [Function.comp, Fin.val_succ]
      split <;> ring
    have ih := bitsum_lt_inj d (fun i => f i.succ) (fun i => g i.succ)
    rw [key f, key g]
    refine ⟨?_, ?_⟩
    · have := ih.1
      split <;> (rw [pow_succ]; omega)
    · intro h
      have h0 : f 0 = g 0 := by
        cases hf : f 0 <;> cases hg : g 0 <;> simp [hf, hg] at h ⊢ <;> omega
      have h1 := ih.2 (by rw [h0] at h; omega)
      funext i
      refine Fin.cases h0 (fun j => congrFun h1 j) i

theorem computeChildIdx_lt (i : Idx d) (h : Nat) : computeChildIdx i h < 2 ^ d := by
  unfold computeChildIdx
  rw [foldl_bits_eq (f := fun a => keyBit (i a) h), Nat.zero_add]
  exact (bitsum_lt_inj d (fun a => keyBit (i a) h) (fun a => keyBit (i a) h)).1

theorem computeChildIdx_eq_iff (i j : Idx d) (h : Nat) :
    computeChildIdx i h = computeChildIdx j h ↔ ∀ a, keyBit (i a) h = keyBit (j a) h := by
  unfold computeChildIdx
  rw [foldl_bits_eq (f := fun a => keyBit (i a) h), foldl_bits_eq (f := fun a => keyBit (j a) h), Nat.zero_add, Nat.zero_add]
  constructor
  · intro e a
    exact congrFun ((bitsum_lt_inj d _ _).2 e) a
  · intro e
    have : (fun a => keyBit (i a) h) = (fun a => keyBit (j a) h) := funext e
    simp only [e]

/-- Two indices take the same path through a subtree of height `h`. -/
def SamePath (h : Nat) (i j : Idx d) : Prop := ∀ l, l < h → computeChildIdx i l = computeChildIdx j l

theorem SamePath.refl (h : Nat) (i : Idx d) : SamePath h i i := fun _ _ => rfl
theorem SamePath.symm {h : Nat} {i j : Idx d} (s : SamePath h i j) : SamePath h j i := fun l hl => (s l hl).symm
theorem SamePath.trans {h : Nat} {i j k : Idx d} (s : SamePath h i j) (t : SamePath h j k) : SamePath h i k :=
  fun l hl => (s l hl).trans (t l hl)

theorem samePath_succ {h : Nat} {i j : Idx d} :
    SamePath (h + 1) i j ↔ computeChildIdx i h = computeChildIdx j h ∧ SamePath h i j := by
  constructor
  · intro s; exact ⟨s h (Nat.lt_succ_self h), fun l hl => s l (Nat.lt_succ_of_lt hl)⟩
  · rintro ⟨a, b⟩ l hl
    rcases Nat.lt_succ_iff_lt_or_eq.1 hl with h1 | h1
    · exact b l h1
    · exact h1 ▸ a

theorem Int.emul_ediv_add_emod_aux (x : Int) (n : Nat) : x % 2 ^ (n + 1) = x % 2 ^ n + 2 ^ n * ((x / 2 ^ n) % 2) := by
  have hp : (0 : Int) < 2 ^ n := by positivity
  have e1 := Int.emod_add_mul_ediv x (2 ^ n)
  have e2 := Int.emod_add_mul_ediv (x / 2 ^ n) 2
  have b1 := Int.emod_nonneg x hp.ne'
  have b2 := Int.emod_lt_of_pos x hp
  have hx : x = (x % 2 ^ n + 2 ^ n * ((x / 2 ^ n) % 2)) + 2 ^ (n + 1) * (x / 2 ^ n / 2) := by
    rw [pow_succ, mul_assoc, add_assoc, ← mul_add, e2]
    exact e1.symm
  rw [show x % 2 ^ (n+1) = ((x % 2 ^ n + 2 ^ n * ((x / 2 ^ n) % 2)) + 2 ^ (n + 1) * (x / 2 ^ n / 2)) % 2 ^ (n+1) by rw [← hx],
    Int.add_mul_emod_self_left]
  apply Int.emod_eq_of_lt
  · have := Int.emod_nonneg (x / 2 ^ n) (show (2 : Int) ≠ 0 by norm_num)
    positivity
  · rw [pow_succ]
    rcases Int.emod_two_eq (x / 2 ^ n) with h | h <;> rw [h] <;> omega

theorem bits_mod (a b : Int) : ∀ n : Nat, (∀ l, l < n → ((a / 2 ^ l) % 2 = (b / 2 ^ l) % 2)) ↔ a % 2 ^ n = b % 2 ^ n
  | 0 => by simp [Int.emod_one]
  | n + 1 => by
    have ih := bits_mod a b n
    have hp : (0 : Int) < 2 ^ n := by positivity
    have e : ∀ x : Int, x % 2 ^ (n + 1) = x % 2 ^ n + 2 ^ n * ((x / 2 ^ n) % 2) := by
      intro x
      have h1 := Int.emul_ediv_add_emod_aux x n
      exact h1
    rw [e a, e b]
    have ha := Int.emod_nonneg a hp.ne'
    have ha' := Int.emod_lt_of_pos a hp
    have hb := Int.emod_nonneg b hp.ne'
    have hb' := Int.emod_lt_of_pos b hp
    constructor
    · intro h
      rw [ih.1 (fun l hl => h l (Nat.lt_succ_of_lt hl)), h n (Nat.lt_succ_self n)]
    · intro h
      have h2 : (a / 2 ^ n) % 2 = (b / 2 ^ n) % 2 := by
        rcases Int.emod_two_eq (a / 2 ^ n) with x | x <;> rcases Int.emod_two_eq (b / 2 ^ n) with y | y <;>
          rw [x, y] at h ⊢ <;> omega
      rw [h2] at h
      have h3 : a % 2 ^ n = b % 2 ^ n := by omega
      intro l hl
      rcases Nat.lt_succ_iff_lt_or_eq.1 hl with h1 | h1
      · exact ih.2 h3 l h1
      · subst h1; exact h2

theorem keyBit_eq_iff (x y : Int) (l : Nat) :
    keyBit x l = keyBit y l ↔ ((x + 32768) / 2 ^ l) % 2 = ((y + 32768) / 2 ^ l) % 2 := by
  unfold keyBit treeMaxVal
  rcases Int.emod_two_eq ((x + 32768) / 2 ^ l) with h | h <;> rcases Int.emod_two_eq ((y + 32768) / 2 ^ l) with g | g <;>
    simp [h, g]

/-- The full path is the index modulo 2^16. -/
theorem samePath_iff_mod (i j : Idx d) : SamePath treeDepth i j ↔ ∀ a, i a % 65536 = j a % 65536 := by
  have : SamePath treeDepth i j ↔ ∀ a, ∀ l, l < 16 → ((i a + 32768) / 2 ^ l) % 2 = ((j a + 32768) / 2 ^ l) % 2 := by
    unfold SamePath treeDepth
    simp only [computeChildIdx_eq_iff, keyBit_eq_iff]
    exact ⟨fun h a l hl => h l hl a, fun h l hl a => h a l hl⟩
  rw [this]
  apply forall_congr'
  intro a
  rw [bits_mod]
  norm_num
  omega

theorem samePath_inRange {i j : Idx d} (hi : Spec.InRange i) (hj : Spec.InRange j) : SamePath treeDepth i j ↔ i = j := by
  rw [samePath_iff_mod]
  constructor
  · intro h; funext a
    have := h a; have := hi a; have := hj a
    omega
  · rintro rfl a; rfl

/-! ### get after insert -/

/-- lookup in a possibly missing node -/
def getOpt (index : Idx d) (h : Nat) (o : Option (Node d V h)) : Option V := o.bind (getNode index h)

theorem getNode_succ (index : Idx d) (h : Nat) (n : Node d V (h + 1)) :
    getNode index (h + 1) n = getOpt index h ((n : Nat → Option (Node d V h)) (computeChildIdx index h)) := by
  rw [getNode]
  cases ((n : Nat → Option (Node d V h)) (computeChildIdx index h)) <;> rfl

theorem getOpt_childrenOf (index : Idx d) (h : Nat) (o : Option (Node d V (h + 1))) :
    getOpt index (h + 1) o = getOpt index h (childrenOf o (computeChildIdx index h)) := by
  cases o with
  | none => rfl
  | some n => exact getNode_succ index h n

open Classical in
theorem getNode_insertNode (merge : V → V → V) (i j : Idx d) (v : V) : ∀ (h : Nat) (o : Option (Node d V h)),
    getNode j h (insertNode merge i v h o).1 =
      if SamePath h i j then some (match getOpt i h o with | none => v | some w => merge w v) else getOpt j h o
  | 0, none => by
    have : SamePath 0 i j := fun l hl => absurd hl (Nat.not_lt_zero l)
    simp [this, insertNode, getNode, getOpt]
  | 0, some l => by
    have : SamePath 0 i j := fun l hl => absurd hl (Nat.not_lt_zero l)
    simp [this, insertNode, getNode, getOpt]
  | h + 1, o => by
    rw [getNode_succ, getOpt_childrenOf i, getOpt_childrenOf j, insertNode, samePath_succ]
    simp only
    by_cases e : computeChildIdx j h = computeChildIdx i h
    · rw [e, Function.update_self]
      have ih := getNode_insertNode merge i j v h (childrenOf o (computeChildIdx i h))
      simp only [getOpt, Option.bind_some] at ih ⊢
      rw [ih]
      simp
    · rw [Function.update_of_ne e]
      have : ¬ computeChildIdx i h = computeChildIdx j h := fun x => e x.symm
      simp [this]

/-- same leaf: the index modulo 2^16 in every coordinate -/
def sameKey (i j : Idx d) : Bool := decide (∀ a, i a % 65536 = j a % 65536)

theorem sameKey_iff (i j : Idx d) : sameKey i j = true ↔ SamePath treeDepth i j := by
  rw [samePath_iff_mod]; simp [sameKey]

theorem Tree.get_eq (t : Tree d V) (j : Idx d) : t.get j = getOpt j treeDepth t.root := by
  unfold Tree.get
  cases t.root <;> rfl

theorem Tree.get_insert (merge : V → V → V) (t : Tree d V) (i j : Idx d) (v : V) :
    (t.insert merge i v).get j =
      if sameKey i j then some (match t.get i with | none => v | some w => merge w v) else t.get j := by
  classical
  simp only [Tree.get_eq, Tree.insert]
  exact (getNode_insertNode merge i j v treeDepth t.root).trans (by simp only [sameKey_iff])

theorem Tree.get_congr (t : Tree d V) {i j : Idx d} (h : SamePath treeDepth i j) : t.get i = t.get j := by
  have key : ∀ (h : Nat) (n : Node d V h), SamePath h i j → getNode i h n = getNode j h n := by
    intro h
    induction h with
    | zero => intro n _; rfl
    | succ h ih =>
      intro n hs
      rw [getNode_succ, getNode_succ, (samePath_succ.1 hs).1]
      cases hc : ((n : Nat → Option (Node d V h)) (computeChildIdx j h)) with
      | none => rfl
      | some c => exact ih c (samePath_succ.1 hs).2
  rw [Tree.get_eq, Tree.get_eq]
  cases t.root with
  | none => rfl
  | some n => exact key _ n h

/-! ### refinement to a finite map -/

theorem run_concat (merge : V → V → V) (g : Nat) (hist : List (Idx d × V)) (e : Idx d × V) :
    run merge g (hist ++ [e]) = (run merge g hist).insert merge e.1 e.2 := by
  simp [run, List.foldl_append]

theorem stored_concat {κ : Type} (merge : V → V → V) (same : κ → κ → Bool) (hist : List (κ × V)) (i : κ) (v : V) (k : κ) :
    Spec.stored merge same (hist ++ [(i, v)]) k =
      if same i k then some (match Spec.stored merge same hist k with | none => v | some w => merge w v)
      else Spec.stored merge same hist k := by
  unfold Spec.stored
  rw [List.filter_append, List.map_append]
  by_cases h : same i k
  · simp only [h, List.filter_cons, List.filter_nil, if_true, List.map_cons, List.map_nil]
    cases (hist.filter (fun e => same e.1 k)).map Prod.snd with
    | nil => simp
    | cons w ws => simp [List.foldl_append]
  · simp [h]

theorem get_run (merge : V → V → V) (g : Nat) (hist : List (Idx d × V)) (j : Idx d) :
    (run merge g hist).get j = Spec.stored merge sameKey hist j := by
  induction hist using List.reverseRecOn generalizing j with
  | nil => rfl
  | append_singleton hist e ih =>
    obtain ⟨i, v⟩ := e
    rw [run_concat, Tree.get_insert, stored_concat]
    by_cases h : sameKey i j
    · simp only [h, if_true]
      rw [Tree.get_congr _ ((sameKey_iff i j).1 h), ih]
    · simp [h, ih]

/-! ### invariant: the stored index leads to the leaf -/

/-- Every leaf of the subtree carries an index whose path from here leads to that leaf, and every inner node has a child. -/
def WF : (h : Nat) → Node d V h → Prop
  | 0, _ => True
  | h + 1, n =>
    (∃ p, p < 2 ^ d ∧ ((n : Nat → Option (Node d V h)) p).isSome) ∧
    ∀ p (c : Node d V h), (n : Nat → Option (Node d V h)) p = some c →
      WF h c ∧ p < 2 ^ d ∧ ∀ e ∈ traverseNode h c, computeChildIdx e.1 h = p

theorem mem_traverse_succ (h : Nat) (n : Node d V (h + 1)) (e : Idx d × V) :
    e ∈ traverseNode (h + 1) n ↔ ∃ p c, p < 2 ^ d ∧ (n : Nat → Option (Node d V h)) p = some c ∧ e ∈ traverseNode h c := by
  rw [traverseNode, List.mem_flatMap]
  constructor
  · rintro ⟨p, hp, he⟩
    cases hc : (n : Nat → Option (Node d V h)) p with
    | none => simp [hc] at he
    | some c =>
      rw [hc] at he
      exact ⟨p, c, List.mem_range.1 hp, hc, he⟩
  · rintro ⟨p, c, hp, hc, he⟩
    exact ⟨p, List.mem_range.2 hp, by rw [hc]; exact he⟩

/-- indices visited in a subtree after an insert -/
theorem traverse_insertNode_fst (merge : V → V → V) (i : Idx d) (v : V) : ∀ (h : Nat) (o : Option (Node d V h)) (e : Idx d × V),
    e ∈ traverseNode h (insertNode merge i v h o).1 → e.1 = i ∨ ∃ n, o = some n ∧ ∃ w, (e.1, w) ∈ traverseNode h n
  | 0, none, e => by
    intro he
    simp only [insertNode, traverseNode, List.mem_singleton] at he
    left; rw [he]
  | 0, some l, e => by
    intro he
    simp only [insertNode, traverseNode, List.mem_singleton] at he
    right; exact ⟨l, rfl, l.data, by rw [he]; simp [traverseNode]⟩
  | h + 1, o, e => by
    intro he
    rw [mem_traverse_succ] at he
    obtain ⟨p, c, hp, hc, he⟩ := he
    simp only [insertNode] at hc
    by_cases ep : p = computeChildIdx i h
    · subst ep
      rw [Function.update_self, Option.some.injEq] at hc
      subst hc
      rcases traverse_insertNode_fst merge i v h _ e he with h1 | ⟨n, hn, w, hw⟩
      · exact Or.inl h1
      · cases o with
        | none => cases hn
        | some m => exact Or.inr ⟨m, rfl, w, (mem_traverse_succ _ _ _).2 ⟨_, n, hp, hn, hw⟩⟩
    · rw [Function.update_of_ne ep] at hc
      cases o with
      | none => cases hc
      | some m => exact Or.inr ⟨m, rfl, e.2, (mem_traverse_succ _ _ _).2 ⟨p, c, hp, hc, he⟩⟩

theorem WF_insertNode (merge : V → V → V) (i : Idx d) (v : V) : ∀ (h : Nat) (o : Option (Node d V h)),
    (∀ n, o = some n → WF h n) → WF h (insertNode merge i v h o).1
  | 0, none, _ => trivial
  | 0, some _, _ => trivial
  | h + 1, o, hw => by
    have hch : ∀ p c, childrenOf o p = some c → WF h c ∧ p < 2 ^ d ∧ ∀ e ∈ traverseNode h c, computeChildIdx e.1 h = p := by
      intro p c hc
      cases o with
      | none => cases hc
      | some n => exact (hw n rfl).2 p c hc
    refine ⟨⟨computeChildIdx i h, computeChildIdx_lt i h, ?_⟩, ?_⟩
    · simp [insertNode]
    · intro p c hc
      simp only [insertNode] at hc
      by_cases ep : p = computeChildIdx i h
      · subst ep
        rw [Function.update_self, Option.some.injEq] at hc
        subst hc
        refine ⟨WF_insertNode merge i v h _ (fun n hn => (hch _ n hn).1), computeChildIdx_lt i h, ?_⟩
        intro e he
        rcases traverse_insertNode_fst merge i v h _ e he with h1 | ⟨n, hn, w, hw'⟩
        · rw [h1]
        · exact (hch _ n hn).2.2 (e.1, w) hw'
      · rw [Function.update_of_ne ep] at hc
        exact hch p c hc

theorem wf_run (merge : V → V → V) (g : Nat) (hist : List (Idx d × V)) :
    ∀ n, (run merge g hist).root = some n → WF treeDepth n := by
  induction hist using List.reverseRecOn with
  | nil => intro n h; cases h
  | append_singleton hist e ih =>
    intro n h
    rw [run_concat] at h
    simp only [Tree.insert, Option.some.injEq] at h
    subst h
    exact WF_insertNode _ _ _ _ _ ih

/-! ### traversal -/

/-- In a well-formed subtree, an entry is visited iff looking up its index finds its data. -/
theorem getNode_of_mem : ∀ (h : Nat) (n : Node d V h), WF h n → ∀ e ∈ traverseNode h n, getNode e.1 h n = some e.2
  | 0, l, _, e, he => by
    simp only [traverseNode, List.mem_singleton] at he
    subst he; rfl
  | h + 1, n, hw, e, he => by
    obtain ⟨p, c, hp, hc, he⟩ := (mem_traverse_succ _ _ _).1 he
    obtain ⟨hwc, _, hpath⟩ := hw.2 p c hc
    rw [getNode_succ, hpath e he, hc]
    exact getNode_of_mem h c hwc e he

theorem exists_of_getNode : ∀ (h : Nat) (n : Node d V h), WF h n → ∀ j v, getNode j h n = some v →
    ∃ i, SamePath h i j ∧ (i, v) ∈ traverseNode h n
  | 0, l, _, j, v, hv => by
    simp only [getNode, Option.some.injEq] at hv
    exact ⟨l.index, fun l hl => absurd hl (Nat.not_lt_zero l), by simp [traverseNode, hv]⟩
  | h + 1, n, hw, j, v, hv => by
    rw [getNode_succ] at hv
    cases hc : (n : Nat → Option (Node d V h)) (computeChildIdx j h) with
    | none => rw [hc] at hv; cases hv
    | some c =>
      rw [hc] at hv
      obtain ⟨hwc, hlt, hpath⟩ := hw.2 _ c hc
      obtain ⟨i, hs, hm⟩ := exists_of_getNode h c hwc j v hv
      exact ⟨i, samePath_succ.2 ⟨hpath _ hm, hs⟩, (mem_traverse_succ _ _ _).2 ⟨_, c, hlt, hc, hm⟩⟩

/-- The path order of indices below height `h` (Morton order): the most significant bit group first. -/
def PathLt : (h : Nat) → Idx d → Idx d → Prop
  | 0, _, _ => False
  | h + 1, i, j => computeChildIdx i h < computeChildIdx j h ∨
      (computeChildIdx i h = computeChildIdx j h ∧ PathLt h i j)

theorem pathLt_irrefl : ∀ (h : Nat) (i j : Idx d), SamePath h i j → ¬ PathLt h i j
  | 0, _, _, _, h => h
  | h + 1, i, j, s, hl => by
    obtain ⟨a, b⟩ := samePath_succ.1 s
    rcases hl with h1 | ⟨_, h2⟩
    · omega
    · exact pathLt_irrefl h i j b h2

theorem pathLt_asymm : ∀ (h : Nat) (i j : Idx d), PathLt h i j → ¬ PathLt h j i
  | 0, _, _, h, _ => h
  | h + 1, i, j, h1, h2 => by
    rcases h1 with a | ⟨a, b⟩ <;> rcases h2 with a' | ⟨a', b'⟩
    · omega
    · omega
    · omega
    · exact pathLt_asymm h i j b b'

theorem traverse_sorted : ∀ (h : Nat) (n : Node d V h), WF h n →
    (traverseNode h n).Pairwise (fun a b => PathLt h a.1 b.1)
  | 0, l, _ => by simp [traverseNode]
  | h + 1, n, hw => by
    rw [traverseNode, List.pairwise_flatMap]
    constructor
    · intro p _
      cases hc : (n : Nat → Option (Node d V h)) p with
      | none => simp
      | some c =>
        obtain ⟨hwc, _, hpath⟩ := hw.2 p c hc
        refine ((traverse_sorted h c hwc).imp_of_mem ?_)
        intro a b ha hb hab
        exact Or.inr ⟨by rw [hpath a ha, hpath b hb], hab⟩
    · refine (List.pairwise_lt_range).imp ?_
      intro p q hpq a ha b hb
      cases hc : (n : Nat → Option (Node d V h)) p with
      | none => simp [hc] at ha
      | some c =>
        cases hc' : (n : Nat → Option (Node d V h)) q with
        | none => simp [hc'] at hb
        | some c' =>
          rw [hc] at ha; rw [hc'] at hb
          refine Or.inl ?_
          rw [(hw.2 p c hc).2.2 a ha, (hw.2 q c' hc').2.2 b hb]
          exact hpq

theorem Tree.traverse_sorted (merge : V → V → V) (g : Nat) (hist : List (Idx d × V)) :
    (run merge g hist).traverse.Pairwise (fun a b => PathLt treeDepth a.1 b.1) := by
  unfold Tree.traverse
  cases h : (run merge g hist).root with
  | none => simp
  | some n => exact Octree.traverse_sorted _ n (wf_run merge g hist n h)

/-- stored indices come from the history -/
theorem traverse_fst_mem (merge : V → V → V) (g : Nat) (hist : List (Idx d × V)) :
    ∀ e ∈ (run merge g hist).traverse, ∃ v, (e.1, v) ∈ hist := by
  induction hist using List.reverseRecOn with
  | nil => intro e he; simp [run, Tree.traverse, Tree.empty] at he
  | append_singleton hist e0 ih =>
    intro e he
    rw [run_concat] at he
    simp only [Tree.traverse, Tree.insert] at he
    rcases traverse_insertNode_fst _ _ _ _ _ e he with h1 | ⟨n, hn, w, hw⟩
    · exact ⟨e0.2, by rw [h1]; simp⟩
    · obtain ⟨v, hv⟩ := ih (e.1, w) (by simp only [Tree.traverse, hn]; exact hw)
      exact ⟨v, by simp [hv]⟩

theorem mem_traverse_run (merge : V → V → V) (g : Nat) (hist : List (Idx d × V)) (hr : ∀ e ∈ hist, Spec.InRange e.1)
    (j : Idx d) (v : V) (hj : Spec.InRange j) :
    (j, v) ∈ (run merge g hist).traverse ↔ (run merge g hist).get j = some v := by
  have hm := traverse_fst_mem merge g hist
  unfold Tree.traverse at hm ⊢
  rw [Tree.get_eq]
  cases h : (run merge g hist).root with
  | none => simp [getOpt]
  | some n =>
    rw [h] at hm
    have hw := wf_run merge g hist n h
    constructor
    · intro he; exact getNode_of_mem _ n hw _ he
    · intro hv
      obtain ⟨i, hs, hi⟩ := exists_of_getNode _ n hw j v hv
      obtain ⟨v', hv'⟩ := hm (i, v) hi
      have := (samePath_inRange (hr _ hv') hj).1 hs
      exact this ▸ hi

/-! ### node counts and memory -/

/-- number of nodes of a subtree -/
def nodeCount : (h : Nat) → Node d V h → Nat
  | 0, _ => 1
  | h + 1, n => 1 + ((List.range (2 ^ d)).map fun i =>
      match (n : Nat → Option (Node d V h)) i with
      | none => 0
      | some c => nodeCount h c).sum

/-- number of inner nodes of a subtree -/
def innerCount : (h : Nat) → Node d V h → Nat
  | 0, _ => 0
  | h + 1, n => 1 + ((List.range (2 ^ d)).map fun i =>
      match (n : Nat → Option (Node d V h)) i with
      | none => 0
      | some c => innerCount h c).sum

theorem sum_update_range (N p : Nat) (hp : p < N) (f : Nat → Nat) (g : Nat → Nat) (hfg : ∀ q, q ≠ p → f q = g q) :
    ((List.range N).map f).sum + g p = ((List.range N).map g).sum + f p := by
  induction N with
  | zero => omega
  | succ N ih =>
    rw [List.range_succ, List.map_append, List.map_append, List.sum_append, List.sum_append]
    simp only [List.map_cons, List.map_nil, List.sum_cons, List.sum_nil]
    by_cases h : p = N
    · subst h
      have : (List.range p).map f = (List.range p).map g := by
        apply List.map_congr_left
        intro a ha
        exact hfg a (by have := List.mem_range.1 ha; omega)
      rw [this]; omega
    · have := ih (by omega)
      rw [hfg N (by omega)]; omega

def countOpt (f : (h : Nat) → Node d V h → Nat) (h : Nat) : Option (Node d V h) → Nat
  | none => 0
  | some n => f h n

theorem nodeCount_succ (h : Nat) (n : Node d V (h + 1)) : nodeCount (h + 1) n =
    1 + ((List.range (2 ^ d)).map fun i => countOpt nodeCount h ((n : Nat → Option (Node d V h)) i)).sum := by
  rw [nodeCount]
  congr 3

theorem countOpt_childrenOf (h : Nat) (o : Option (Node d V (h + 1))) : countOpt nodeCount (h + 1) o =
    (if o.isNone then 0 else 1) + ((List.range (2 ^ d)).map fun i => countOpt nodeCount h (childrenOf o i)).sum := by
  cases o with
  | none => simp [countOpt, childrenOf]
  | some n =>
    rw [countOpt, nodeCount_succ]; simp [childrenOf]

theorem nodeCount_insertNode (merge : V → V → V) (i : Idx d) (v : V) : ∀ (h : Nat) (o : Option (Node d V h)),
    nodeCount h (insertNode merge i v h o).1 = countOpt nodeCount h o + (insertNode merge i v h o).2
  | 0, none => rfl
  | 0, some _ => rfl
  | h + 1, o => by
    rw [nodeCount_succ, countOpt_childrenOf]
    have hlt := computeChildIdx_lt i h
    have ih := nodeCount_insertNode merge i v h (childrenOf o (computeChildIdx i h))
    have := sum_update_range (2 ^ d) (computeChildIdx i h) hlt
      (fun q => countOpt nodeCount h (Function.update (childrenOf o) (computeChildIdx i h)
        (some (insertNode merge i v h (childrenOf o (computeChildIdx i h))).1) q))
      (fun q => countOpt nodeCount h (childrenOf o q))
      (fun q hq => by simp only [Function.update_of_ne hq])
    simp only [Function.update_self] at this
    rw [show countOpt nodeCount h (some (insertNode merge i v h (childrenOf o (computeChildIdx i h))).1) = nodeCount h _ from rfl,
      ih] at this
    simp only [insertNode]
    cases o <;> simp at this ⊢ <;> omega

theorem size_run (merge : V → V → V) (g : Nat) (hist : List (Idx d × V)) :
    (run merge g hist).size = g + countOpt nodeCount treeDepth (run merge g hist).root := by
  induction hist using List.reverseRecOn with
  | nil => rfl
  | append_singleton hist e ih =>
    rw [run_concat]
    simp only [Tree.insert]
    rw [show countOpt nodeCount treeDepth (some (insertNode merge e.1 e.2 treeDepth (run merge g hist).root).1) =
      nodeCount treeDepth _ from rfl, nodeCount_insertNode, ih]
    omega

theorem created_le (merge : V → V → V) (i : Idx d) (v : V) : ∀ (h : Nat) (o : Option (Node d V h)),
    (insertNode merge i v h o).2 ≤ h + (if o.isNone then 1 else 0) ∧
    ((insertNode merge i v h o).2 = 0 ↔ (getOpt i h o).isSome)
  | 0, none => by simp [insertNode, getOpt]
  | 0, some _ => by simp [insertNode, getOpt, getNode]
  | h + 1, o => by
    obtain ⟨h1, h2⟩ := created_le merge i v h (childrenOf o (computeChildIdx i h))
    rw [getOpt_childrenOf]
    simp only [insertNode]
    constructor
    · cases o <;> simp at h1 ⊢
      · change _ ≤ h + 1 at h1
        omega
      · split at h1 <;> omega
    · rw [← h2]
      cases o with
      | none =>
        have : getOpt i h (childrenOf (none : Option (Node d V (h+1))) (computeChildIdx i h)) = none := rfl
        rw [this] at h2
        simpa using h2
      | some n => simp

/-! ### which nodes exist -/

/-- two indices agree on the levels `h' ≤ l < h` -/
def Agree (h' h : Nat) (i j : Idx d) : Prop := ∀ l, h' ≤ l → l < h → computeChildIdx i l = computeChildIdx j l

def entriesOpt (h : Nat) : Option (Node d V h) → List (Idx d × V)
  | none => []
  | some n => traverseNode h n

open Classical in
theorem created_eq (merge : V → V → V) (i : Idx d) (v : V) : ∀ (h : Nat) (o : Option (Node d V h)), (∀ n, o = some n → WF h n) →
    (insertNode merge i v h o).2 =
      ((Finset.range (h + 1)).filter (fun h' => ∀ e ∈ entriesOpt h o, ¬ Agree h' h e.1 i)).card
  | 0, none, _ => by simp [insertNode, entriesOpt]
  | 0, some l, _ => by
    have : ∀ i j : Idx d, Agree 0 0 i j := fun i j l h1 h2 => absurd h2 (by omega)
    simp [insertNode, entriesOpt, traverseNode, Finset.filter_singleton, this]
  | h + 1, none, hw => by
    have ih := created_eq merge i v h none (by simp)
    simp only [insertNode]
    change (insertNode merge i v h none).2 + _ = _
    rw [ih]
    simp [entriesOpt]
  | h + 1, some n, hw => by
    obtain ⟨⟨q, hq, hqs⟩, hch⟩ := hw n rfl
    have ih := created_eq merge i v h ((n : Nat → Option (Node d V h)) (computeChildIdx i h))
      (fun c hc => (hch _ c hc).1)
    simp only [insertNode]
    change (insertNode merge i v h ((n : Nat → Option (Node d V h)) (computeChildIdx i h))).2 + _ = _
    rw [ih, Finset.range_add_one (n := h + 1), Finset.filter_insert]
    have hne : ∃ e, e ∈ traverseNode (h + 1) n := by
      have aux : ∀ (h : Nat) (m : Node d V h), WF h m → ∃ e, e ∈ traverseNode h m := by
        intro h
        induction h with
        | zero => intro m _; exact ⟨_, List.mem_singleton.2 rfl⟩
        | succ h ih =>
          intro m hm
          obtain ⟨⟨q, hq, hqs⟩, hc⟩ := hm
          obtain ⟨c, hcq⟩ := Option.isSome_iff_exists.1 hqs
          obtain ⟨e, he⟩ := ih c (hc q c hcq).1
          exact ⟨e, (mem_traverse_succ _ _ _).2 ⟨q, c, hq, hcq, he⟩⟩
      exact aux _ n (hw n rfl)
    have htop : ¬ ∀ e ∈ entriesOpt (h + 1) (some n), ¬ Agree (h + 1) (h + 1) e.1 i := by
      intro hall
      obtain ⟨e, he⟩ := hne
      exact hall e he (fun l h1 h2 => absurd h2 (by omega))
    rw [if_neg htop]
    simp only [Option.isNone_some, Bool.false_eq_true, if_false, Nat.add_zero]
    congr 1
    apply Finset.filter_congr
    intro h' hh'
    have hle : h' ≤ h := by have := Finset.mem_range.1 hh'; omega
    constructor
    · intro hall e he hag
      obtain ⟨p, c, hp, hc, he'⟩ := (mem_traverse_succ _ _ _).1 he
      have hpe := (hch p c hc).2.2 e he'
      have : p = computeChildIdx i h := by rw [← hpe]; exact hag h hle (Nat.lt_succ_self h)
      subst this
      refine hall e ?_ (fun l h1 h2 => hag l h1 (by omega))
      rw [hc]; exact he'
    · intro hall e he hag
      cases hc : (n : Nat → Option (Node d V h)) (computeChildIdx i h) with
      | none => rw [hc] at he; simp [entriesOpt] at he
      | some c =>
        rw [hc] at he
        have hm := (mem_traverse_succ h n e).2 ⟨_, c, computeChildIdx_lt i h, hc, he⟩
        refine hall e hm (fun l h1 h2 => ?_)
        rcases Nat.lt_succ_iff_lt_or_eq.1 h2 with h3 | h3
        · exact hag l h1 h3
        · subst h3; exact (hch _ c hc).2.2 e he

theorem agree_inRange {i j : Idx d} (hi : Spec.InRange i) (hj : Spec.InRange j) (h' : Nat) (hh : h' ≤ 16) :
    Agree h' treeDepth i j ↔ Spec.ancestor h' i = Spec.ancestor h' j := by
  have h1 : Agree h' treeDepth i j ↔ ∀ a, ∀ l, l < 16 - h' →
      ((i a + 32768) / 2 ^ h' / 2 ^ l) % 2 = ((j a + 32768) / 2 ^ h' / 2 ^ l) % 2 := by
    unfold Agree treeDepth
    simp only [computeChildIdx_eq_iff, keyBit_eq_iff]
    have hdiv : ∀ x : Int, ∀ l : Nat, x / 2 ^ h' / 2 ^ l = x / 2 ^ (h' + l) := by
      intro x l
      rw [Int.ediv_ediv_of_nonneg (by positivity), pow_add]
    constructor
    · intro h a l hl
      rw [hdiv, hdiv]
      exact h (h' + l) (by omega) (by omega) a
    · intro h l hl1 hl2 a
      have := h a (l - h') (by omega)
      rw [hdiv, hdiv, show h' + (l - h') = l by omega] at this
      exact this
  rw [h1, funext_iff]
  apply forall_congr'
  intro a
  rw [bits_mod]
  have bound : ∀ x : Int, -32768 ≤ x → x ≤ 32767 → ((x + 32768) / 2 ^ h') % 2 ^ (16 - h') = (x + 32768) / 2 ^ h' := by
    intro x hx1 hx2
    apply Int.emod_eq_of_lt
    · exact Int.ediv_nonneg (by omega) (by positivity)
    · rw [Int.ediv_lt_iff_lt_mul (by positivity), ← pow_add, show 16 - h' + h' = 16 by omega]
      norm_num; omega
  rw [bound _ (hi a).1 (hi a).2, bound _ (hj a).1 (hj a).2]
  rfl

theorem traverse_eq_entries (t : Tree d V) : t.traverse = entriesOpt treeDepth t.root := by
  unfold Tree.traverse
  cases t.root <;> rfl

theorem exists_entry_iff (merge : V → V → V) (g : Nat) (hist : List (Idx d × V)) (hr : ∀ e ∈ hist, Spec.InRange e.1) (i : Idx d) :
    (∃ e ∈ (run merge g hist).traverse, e.1 = i) ↔ i ∈ hist.map Prod.fst := by
  constructor
  · rintro ⟨e, he, rfl⟩
    obtain ⟨v, hv⟩ := traverse_fst_mem merge g hist e he
    exact List.mem_map.2 ⟨_, hv, rfl⟩
  · intro hi
    obtain ⟨e, he, rfl⟩ := List.mem_map.1 hi
    have hir := hr e he
    have : ((run merge g hist).get e.1).isSome := by
      rw [get_run]
      unfold Spec.stored
      have hne : e.2 ∈ (hist.filter (fun x => sameKey x.1 e.1)).map Prod.snd := by
        refine List.mem_map.2 ⟨e, List.mem_filter.2 ⟨he, ?_⟩, rfl⟩
        simp [sameKey]
      cases hl : (hist.filter (fun x => sameKey x.1 e.1)).map Prod.snd with
      | nil => rw [hl] at hne; simp at hne
      | cons => rfl
    obtain ⟨v, hv⟩ := Option.isSome_iff_exists.1 this
    exact ⟨(e.1, v), (mem_traverse_run merge g hist hr e.1 v hir).2 hv, rfl⟩

theorem size_run_spec (merge : V → V → V) (g : Nat) (hist : List (Idx d × V)) (hr : ∀ e ∈ hist, Spec.InRange e.1) :
    (run merge g hist).size = g + Spec.octreeNodes (hist.map Prod.fst).toFinset := by
  classical
  induction hist using List.reverseRecOn with
  | nil => simp [run, Tree.empty, Spec.octreeNodes]
  | append_singleton hist e ih =>
    have hr' : ∀ e ∈ hist, Spec.InRange e.1 := fun x hx => hr x (List.mem_append_left _ hx)
    have hre : Spec.InRange e.1 := hr e (by simp)
    rw [run_concat]
    simp only [Tree.insert]
    rw [created_eq merge e.1 e.2 treeDepth _ (wf_run merge g hist), ih hr', add_assoc]
    refine congrArg (g + ·) ?_
    rw [← traverse_eq_entries, Finset.card_filter]
    unfold Spec.octreeNodes
    rw [show treeDepth + 1 = 17 from rfl, ← Finset.sum_add_distrib]
    apply Finset.sum_congr rfl
    intro h hh
    have hh16 : h ≤ 16 := by have := Finset.mem_range.1 hh; omega
    have hset : (List.map Prod.fst (hist ++ [e])).toFinset = insert e.1 (hist.map Prod.fst).toFinset := by
      ext x; simp
    rw [hset, Finset.image_insert]
    have hiff : (∀ x ∈ (run merge g hist).traverse, ¬ Agree h treeDepth x.1 e.1) ↔
        Spec.ancestor h e.1 ∉ (hist.map Prod.fst).toFinset.image (Spec.ancestor h) := by
      rw [Finset.mem_image]
      constructor
      · rintro hall ⟨i, hi, hie⟩
        have hi' : i ∈ hist.map Prod.fst := List.mem_toFinset.1 hi
        obtain ⟨x, hx, rfl⟩ := (exists_entry_iff merge g hist hr' i).2 hi'
        obtain ⟨y, hy, hyx⟩ := List.mem_map.1 hi'
        refine hall x hx ((agree_inRange ?_ hre h hh16).2 hie)
        rw [← hyx]; exact hr' y hy
      · intro hn x hx hag
        have hi' := (exists_entry_iff merge g hist hr' x.1).1 ⟨x, hx, rfl⟩
        obtain ⟨y, hy, hyx⟩ := List.mem_map.1 hi'
        refine hn ⟨x.1, List.mem_toFinset.2 hi', (agree_inRange ?_ hre h hh16).1 hag⟩
        rw [← hyx]; exact hr' y hy
    by_cases hc : Spec.ancestor h e.1 ∈ (hist.map Prod.fst).toFinset.image (Spec.ancestor h)
    · rw [if_neg (by rw [hiff]; exact not_not.2 hc), Finset.insert_eq_of_mem hc, Nat.add_zero]
    · rw [if_pos (hiff.2 hc), Finset.card_insert_of_notMem hc]

/-! ### byte sizes -/

theorem hasChildren_of_WF {h : Nat} {n : Node d V (h + 1)} (hw : WF (h + 1) n) : hasChildren n = true := by
  obtain ⟨⟨p, hp, hs⟩, _⟩ := hw
  unfold hasChildren
  rw [List.any_eq_true]
  exact ⟨p, List.mem_range.2 hp, hs⟩

def leafBytes (sz : Sizes V) (l : List (Idx d × V)) : Nat := (l.map (fun e => sz.index + sz.data e.2)).sum

theorem foldl_add_opt {h : Nat} (f : Node d V h → Nat) (c : Nat → Option (Node d V h)) (l : List Nat) (a : Nat) :
    l.foldl (fun acc i => match c i with | none => acc | some x => acc + f x) a =
      a + (l.map (fun i => match c i with | none => 0 | some x => f x)).sum := by
  induction l generalizing a with
  | nil => simp
  | cons x xs ih =>
    simp only [List.foldl_cons, List.map_cons, List.sum_cons]
    rw [ih]
    cases c x <;> simp; omega

theorem byteSizeNode_eq (sz : Sizes V) : ∀ (h : Nat) (n : Node d V h) (b : Nat), WF h n →
    byteSizeNode sz h n b = b + nodeCount h n * sz.node + (nodeCount h n - (traverseNode h n).length) * (2 ^ d * sz.ptr)
      + leafBytes sz (traverseNode h n) ∧ (traverseNode h n).length ≤ nodeCount h n
  | 0, l, b, _ => by
    simp [byteSizeNode, nodeCount, traverseNode, leafBytes]
  | h + 1, n, b, hw => by
    have key : ∀ l : List Nat, (l.map (fun i => match (n : Nat → Option (Node d V h)) i with
          | none => 0 | some x => byteSizeNode sz h x 0)).sum =
        (l.map fun i => match (n : Nat → Option (Node d V h)) i with
          | none => 0 | some c => nodeCount h c).sum * sz.node +
        ((l.map fun i => match (n : Nat → Option (Node d V h)) i with
          | none => 0 | some c => nodeCount h c).sum -
         (l.flatMap fun i => match (n : Nat → Option (Node d V h)) i with
          | none => [] | some c => traverseNode h c).length) * (2 ^ d * sz.ptr) +
        leafBytes sz (l.flatMap fun i => match (n : Nat → Option (Node d V h)) i with
          | none => [] | some c => traverseNode h c) ∧
        (l.flatMap fun i => match (n : Nat → Option (Node d V h)) i with
          | none => [] | some c => traverseNode h c).length ≤ (l.map fun i => match (n : Nat → Option (Node d V h)) i with
          | none => 0 | some c => nodeCount h c).sum := by
      intro l
      induction l with
      | nil => simp [leafBytes]
      | cons x xs ih =>
        obtain ⟨ih1, ih2⟩ := ih
        simp only [List.map_cons, List.sum_cons, List.flatMap_cons, List.length_append]
        rw [ih1]
        cases hc : (n : Nat → Option (Node d V h)) x with
        | none => simpa using ih2
        | some c =>
          obtain ⟨e1, e2⟩ := byteSizeNode_eq sz h c 0 (hw.2 x c hc).1
          simp only
          rw [e1]
          refine ⟨?_, by omega⟩
          generalize 2 ^ d * sz.ptr = P
          unfold leafBytes
          rw [List.map_append, List.sum_append]
          generalize (List.map (fun i => match (n : Nat → Option (Node d V h)) i with
            | none => 0 | some c => nodeCount h c) xs).sum = A at *
          generalize (List.flatMap (fun i => match (n : Nat → Option (Node d V h)) i with
            | none => [] | some c => traverseNode h c) xs) = B at *
          obtain ⟨k1, hk1⟩ := Nat.exists_eq_add_of_le e2
          obtain ⟨k2, hk2⟩ := Nat.exists_eq_add_of_le ih2
          rw [hk1, hk2]
          rw [show (traverseNode h c).length + k1 + (B.length + k2) - ((traverseNode h c).length + B.length) = k1 + k2 by omega,
            Nat.add_sub_cancel_left, Nat.add_sub_cancel_left]
          ring
    have hk := key (List.range (2 ^ d))
    have hb : byteSizeNode sz (h + 1) n b = (b + sz.node + 2 ^ d * sz.ptr) +
        ((List.range (2 ^ d)).map (fun i => match (n : Nat → Option (Node d V h)) i with
          | none => 0 | some x => byteSizeNode sz h x 0)).sum := by
      rw [byteSizeNode, hasChildren_of_WF hw]
      simp only [if_true]
      exact foldl_add_opt (fun x => byteSizeNode sz h x 0) n _ _
    rw [hb, hk.1, nodeCount, traverseNode]
    refine ⟨?_, hk.2.trans (Nat.le_add_left _ _)⟩
    obtain ⟨k, hk'⟩ := Nat.exists_eq_add_of_le hk.2
    rw [hk']
    generalize (List.flatMap (fun i => match (n : Nat → Option (Node d V h)) i with
            | none => [] | some c => traverseNode h c) (List.range (2 ^ d))) = B
    rw [show 1 + (B.length + k) - B.length = 1 + k by omega, Nat.add_sub_cancel_left]
    ring

end Ndt.Octree
