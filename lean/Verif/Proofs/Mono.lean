import Verif.Model.Mono
import Verif.Spec.Stencil
import Verif.Proofs.Convert
import Verif.Proofs.SerialMap
import Mathlib.Algebra.BigOperators.Group.Finset.Piecewise
import Mathlib.Algebra.BigOperators.Ring.Finset
import Mathlib.Tactic.FinCases
import Mathlib.Tactic.Ring

/-! Lemmas on the single-resolution map. -/

namespace Ndt
namespace Mono
variable {d : Nat} {D E : Type}

/-- everything except the cells -/
structure SameFrame (m m' : Mono d D) : Prop where
  size : m'.size = m.size
  lo : m'.lo = m.lo
  hi : m'.hi = m.hi
  ssize : m'.store.size = m.store.size
  offset : m'.store.offset = m.store.offset

theorem SameFrame.refl (m : Mono d D) : SameFrame m m := ⟨rfl, rfl, rfl, rfl, rfl⟩

theorem SameFrame.trans {m m' m'' : Mono d D} (h : SameFrame m m') (h' : SameFrame m' m'') : SameFrame m m'' :=
  ⟨h'.size.trans h.size, h'.lo.trans h.lo, h'.hi.trans h.hi, h'.ssize.trans h.ssize, h'.offset.trans h.offset⟩

theorem SameFrame.inBox {m m' : Mono d D} (h : SameFrame m m') (i : Idx d) : m'.store.InBox i ↔ m.store.InBox i := by
  unfold Arr.InBox; rw [h.ssize, h.offset]

theorem addBins_spec (i : Idx d) (src : Nat → Option (Multiset E)) : ∀ (l : List Nat) (m : Mono d (Multiset E)) (t : Multiset E), m.store.cells i = some t → (∀ c ∈ l, (src c).isSome = true) →
    ∃ m', addBins i src l m = some m' ∧ SameFrame m m' ∧ m'.store.cells = Function.update m.store.cells i (some (t + (l.map fun c => (src c).getD 0).sum))
  | [], m, t, ht, _ => ⟨m, rfl, .refl m, by simp [← ht]⟩
  | c :: l, m, t, ht, hs => by
    obtain ⟨s, hc⟩ := Option.isSome_iff_exists.1 (hs c (List.mem_cons_self ..))
    obtain ⟨m', h1, h2, h3⟩ := addBins_spec i src l (m.modify i fun t => t + s) (t + s) (by simp [modify, ht]) fun c' hc' => hs c' (List.mem_cons_of_mem _ hc')
    refine ⟨m', ?_, ?_, ?_⟩
    · simp only [addBins, hc]; exact h1
    · exact (SameFrame.mk rfl rfl rfl rfl rfl : SameFrame m (m.modify i fun t => t + s)).trans h2
    · rw [h3]
      funext j
      by_cases e : j = i
      · subst e; simp [hc, add_assoc]
      · simp [modify, e]

theorem getAllocate_fresh [Inhabited D] (i : Idx d) (m : Mono d D) (hb : m.store.InBox i) (h : m.store.cells i = none) :
    ∃ m', getAllocate i m = some m' ∧ SameFrame m m' ∧ m'.store.cells = Function.update m.store.cells i (some default) := by
  refine ⟨{ m with store := (arrayBackend d).insert m.store i default }, ?_, ⟨rfl, rfl, rfl, rfl, rfl⟩, (funext fun j => (Function.update_apply _ _ _ j).symm)⟩
  unfold getAllocate
  rw [if_pos (decide_eq_true hb)]
  simp only [h]

theorem mergeList_spec : ∀ (l : List (Idx d × (Nat → Option (Multiset E)))) (m : Mono d (Multiset E)), (l.map Prod.fst).Nodup → (∀ e ∈ l, m.store.InBox e.1) →
    (∀ e ∈ l, m.store.cells e.1 = none) → (∀ e ∈ l, ∀ c, c < 2 ^ d → (e.2 c).isSome = true) →
    ∃ m', mergeList l m = some m' ∧ SameFrame m m' ∧ (∀ i, i ∉ l.map Prod.fst → m'.store.cells i = m.store.cells i) ∧
      ∀ e ∈ l, m'.store.cells e.1 = some ((List.range (2 ^ d)).map fun c => (e.2 c).getD 0).sum
  | [], m, _, _, _, _ => ⟨m, rfl, .refl m, fun _ _ => rfl, fun e he => by cases he⟩
  | (i, src) :: l, m, hn, hb, hf, hs => by
    rw [List.map_cons, List.nodup_cons] at hn
    obtain ⟨m1, a1, a2, a3⟩ := getAllocate_fresh i m (hb _ (List.mem_cons_self ..)) (hf _ (List.mem_cons_self ..))
    obtain ⟨m2, b1, b2, b3⟩ := addBins_spec i src (List.range (2 ^ d)) m1 default (by rw [a3]; simp)
      (fun c hc => hs _ (List.mem_cons_self ..) c (List.mem_range.1 hc))
    have hne : ∀ e ∈ l, e.1 ≠ i := fun e he h => hn.1 (List.mem_map.2 ⟨e, he, h⟩)
    have h12 := a2.trans b2
    have hcells : m2.store.cells = Function.update m.store.cells i (some ((List.range (2 ^ d)).map fun c => (src c).getD 0).sum) := by
      rw [b3, a3, Function.update_idem]
      congr 2
      exact zero_add _
    obtain ⟨m3, c1, c2, c3, c4⟩ := mergeList_spec l m2 hn.2 (fun e he => (h12.inBox _).2 (hb e (List.mem_cons_of_mem _ he)))
      (fun e he => by rw [hcells, Function.update_of_ne (hne e he)]; exact hf e (List.mem_cons_of_mem _ he))
      (fun e he => hs e (List.mem_cons_of_mem _ he))
    refine ⟨m3, ?_, h12.trans c2, ?_, ?_⟩
    · simp only [mergeList, a1, Option.bind_some, twoPow_eq, b1, c1]
    · intro j hj
      rw [List.map_cons, List.mem_cons, not_or] at hj
      rw [c3 j hj.2, hcells, Function.update_of_ne hj.1]
    · intro e he
      rcases List.mem_cons.1 he with rfl | he
      · rw [c3 i hn.1, hcells, Function.update_self]
      · exact c4 e he

theorem mergeSize_eq {B : Backend d} (st : St B D) (a : Fin d) (h : -32768 ≤ st.minB a ∧ st.minB a ≤ st.maxB a ∧ st.maxB a ≤ 32767) :
    ∃ n : Nat, mergeSize st a = some n ∧ (n : Int) = st.maxB a - st.minB a + 1 := by
  refine ⟨(st.maxB a - st.minB a + 1).toNat, ?_, by omega⟩
  unfold mergeSize intSub
  rw [if_pos (by omega)]
  simp only
  rw [if_pos (by omega)]

/-- two bundles share the distribution of bin `c` in one dimension -/
theorem share_count (i b : Int) : ((if i / 2 = b / 2 then 1 else 0) + (if (i + 1) / 2 = (b + 1) / 2 then 1 else 0) : Nat) = Spec.stencil1 (b - i) := by
  unfold Spec.stencil1
  by_cases h0 : b - i = 0
  · have : b = i := by omega
    subst this; simp
  · rw [if_neg h0]
    by_cases h1 : |b - i| = 1
    · rw [if_pos h1]
      have : b = i + 1 ∨ b = i - 1 := by
        rcases abs_eq (by norm_num : (0 : Int) ≤ 1) |>.1 h1 with h | h <;> omega
      rcases this with rfl | rfl
      · rcases Int.emod_two_eq i with h | h
        · rw [if_pos (by omega), if_neg (by omega)]
        · rw [if_neg (by omega), if_pos (by omega)]
      · rcases Int.emod_two_eq i with h | h
        · rw [if_neg (by omega), if_pos (by omega)]
        · rw [if_pos (by omega), if_neg (by omega)]
    · rw [if_neg h1]
      have hx : ¬ (b - i = 1) ∧ ¬ (b - i = -1) := ⟨fun h => h1 (by rw [h]; rfl), fun h => h1 (by rw [h]; rfl)⟩
      rw [if_neg (by omega), if_neg (by omega)]

end Mono
end Ndt

namespace Ndt

theorem prod_bits : ∀ (d : Nat) (u v : Fin d → Nat), (∑ c ∈ Finset.range (2 ^ d), ∏ i : Fin d, if c.testBit i.1 then u i else v i) = ∏ i, (v i + u i)
  | 0, u, v => by simp
  | d + 1, u, v => by
    rw [pow_succ, mul_two, Finset.sum_range_add]
    have h1 : ∀ c ∈ Finset.range (2 ^ d), (∏ i : Fin (d + 1), if c.testBit i.1 then u i else v i) =
        (∏ i : Fin d, if c.testBit i.1 then u i.castSucc else v i.castSucc) * v (Fin.last d) := by
      intro c hc
      rw [Fin.prod_univ_castSucc]
      simp only [Fin.val_castSucc, Fin.val_last, Nat.testBit_lt_two_pow (Finset.mem_range.1 hc), Bool.false_eq_true, if_false]
    have h2 : ∀ c ∈ Finset.range (2 ^ d), (∏ i : Fin (d + 1), if (2 ^ d + c).testBit i.1 then u i else v i) =
        (∏ i : Fin d, if c.testBit i.1 then u i.castSucc else v i.castSucc) * u (Fin.last d) := by
      intro c hc
      rw [Fin.prod_univ_castSucc]
      have : ∀ i : Fin d, (2 ^ d + c).testBit i.1 = c.testBit i.1 := fun i => Nat.testBit_two_pow_add_gt i.2 c
      simp only [Fin.val_castSucc, Fin.val_last, Nat.testBit_two_pow_add_eq, Nat.testBit_lt_two_pow (Finset.mem_range.1 hc), Bool.not_false, if_true, this]
    rw [Finset.sum_congr rfl h1, Finset.sum_congr rfl h2, ← Finset.sum_mul, ← Finset.sum_mul, prod_bits d, Fin.prod_univ_castSucc]
    ring

/-- the number of bins that two bundles share -/
theorem shared_bins {d : Nat} (i b : Idx d) : (∑ c ∈ Finset.range (2 ^ d), if generateIndex b c = generateIndex i c then 1 else 0) = Spec.stencil (fun a => b a - i a) := by
  unfold Spec.stencil
  have h : ∀ c ∈ Finset.range (2 ^ d), (if generateIndex b c = generateIndex i c then 1 else 0) =
      ∏ a : Fin d, if c.testBit a.1 then (if (i a + 1) / 2 = (b a + 1) / 2 then 1 else 0) else (if i a / 2 = b a / 2 then 1 else 0) := by
    intro c _
    have hg : ∀ (j : Idx d) (a : Fin d), generateIndex j c a = if c.testBit a.1 then (j a + 1) / 2 else j a / 2 := fun j a => getIndexInner_eq _ _ _
    by_cases h : generateIndex b c = generateIndex i c
    · rw [if_pos h]
      symm
      refine Finset.prod_eq_one fun a _ => ?_
      have := congrFun h a
      rw [hg, hg] at this
      split
      · rename_i hb; rw [if_pos hb, if_pos hb] at this; rw [if_pos this.symm]
      · rename_i hb; rw [if_neg hb, if_neg hb] at this; rw [if_pos this.symm]
    · rw [if_neg h]
      obtain ⟨a, ha⟩ := Function.ne_iff.1 h
      symm
      refine Finset.prod_eq_zero (Finset.mem_univ a) ?_
      rw [hg, hg] at ha
      split
      · rename_i hb; rw [if_pos hb, if_pos hb] at ha; rw [if_neg (Ne.symm ha)]
      · rename_i hb; rw [if_neg hb, if_neg hb] at ha; rw [if_neg (Ne.symm ha)]
  rw [Finset.sum_congr rfl h, prod_bits]
  exact Finset.prod_congr rfl fun a _ => Mono.share_count _ _

/-- the neighbours of a bundle as a finite set -/
def nbr {d : Nat} (b : Idx d) : Finset (Idx d) := Fintype.piFinset fun a => {b a - 1, b a, b a + 1}

theorem stencil1_eq_zero (b i : Int) : Spec.stencil1 (b - i) = 0 ↔ i ∉ ({b - 1, b, b + 1} : Finset Int) := by
  unfold Spec.stencil1
  simp only [Finset.mem_insert, Finset.mem_singleton, not_or]
  by_cases h0 : b - i = 0
  · rw [if_pos h0]; omega
  · rw [if_neg h0]
    by_cases h1 : |b - i| = 1
    · rw [if_pos h1]
      rcases abs_eq (by norm_num : (0 : Int) ≤ 1) |>.1 h1 with h | h <;> omega
    · rw [if_neg h1]
      have hx : ¬ (b - i = 1) ∧ ¬ (b - i = -1) := ⟨fun h => h1 (by rw [h]; rfl), fun h => h1 (by rw [h]; rfl)⟩
      refine iff_of_true rfl ⟨by omega, by omega, by omega⟩

theorem stencil_eq_zero {d : Nat} (b i : Idx d) : Spec.stencil (fun a => b a - i a) = 0 ↔ i ∉ nbr b := by
  unfold Spec.stencil nbr
  rw [Finset.prod_eq_zero_iff, Fintype.mem_piFinset]
  push Not
  exact ⟨fun ⟨a, _, h⟩ => ⟨a, (stencil1_eq_zero _ _).1 h⟩, fun ⟨a, h⟩ => ⟨a, Finset.mem_univ _, (stencil1_eq_zero _ _).2 h⟩⟩

theorem sum_stencil1 (b : Int) : (∑ i ∈ ({b - 1, b, b + 1} : Finset Int), Spec.stencil1 (b - i)) = 4 := by
  have h1 : b - 1 ∉ ({b, b + 1} : Finset Int) := by simp; omega
  have h2 : b ∉ ({b + 1} : Finset Int) := by simp
  rw [Finset.sum_insert h1, Finset.sum_insert h2, Finset.sum_singleton]
  have e1 : b - (b - 1) = 1 := by ring
  have e2 : b - b = 0 := by ring
  have e3 : b - (b + 1) = -1 := by ring
  rw [e1, e2, e3]; rfl

theorem sum_stencil {d : Nat} (b : Idx d) : (∑ i ∈ nbr b, Spec.stencil (fun a => b a - i a)) = 4 ^ d := by
  unfold nbr Spec.stencil
  rw [← Finset.prod_univ_sum (fun a => ({b a - 1, b a, b a + 1} : Finset Int)) fun a i => Spec.stencil1 (b a - i)]
  simp only [sum_stencil1]
  simp

theorem sum_stencil_le {d : Nat} (b : Idx d) (S : Finset (Idx d)) : (∑ i ∈ S, Spec.stencil (fun a => b a - i a)) ≤ 4 ^ d := by
  classical
  rw [← sum_stencil b]
  calc _ = ∑ i ∈ S.filter (· ∈ nbr b), Spec.stencil (fun a => b a - i a) := by
        rw [Finset.sum_filter]
        refine Finset.sum_congr rfl fun i _ => ?_
        split
        · rfl
        · rename_i h; exact (stencil_eq_zero b i).2 h
    _ ≤ _ := Finset.sum_le_sum_of_subset fun i hi => (Finset.mem_filter.1 hi).2

theorem le_sum_stencil {d : Nat} (b : Idx d) (S : Finset (Idx d)) (h : b ∈ S) : 2 ^ d ≤ ∑ i ∈ S, Spec.stencil (fun a => b a - i a) := by
  classical
  rw [← Finset.insert_erase h, Finset.sum_insert (Finset.notMem_erase _ _)]
  have : Spec.stencil (fun a => b a - b a) = 2 ^ d := by simp [Spec.stencil, Spec.stencil1]
  omega

theorem sum_stencil_eq_iff {d : Nat} (b : Idx d) (S : Finset (Idx d)) : (∑ i ∈ S, Spec.stencil (fun a => b a - i a)) = 4 ^ d ↔ nbr b ⊆ S := by
  classical
  constructor
  · intro h i hi
    by_contra hn
    have h1 := sum_stencil_le b (insert i S)
    rw [Finset.sum_insert hn, h] at h1
    have h2 : Spec.stencil (fun a => b a - i a) ≠ 0 := fun h => (stencil_eq_zero b i).1 h hi
    omega
  · intro h
    refine le_antisymm (sum_stencil_le b S) ?_
    rw [← sum_stencil b]
    exact Finset.sum_le_sum_of_subset h

theorem sum_card_filter_range {X : Type} (n : Nat) (P : Nat → X → Prop) [∀ c x, Decidable (P c x)] (s : Multiset X) :
    (∑ c ∈ Finset.range n, (s.filter (P c)).card) = (s.map fun x => ∑ c ∈ Finset.range n, if P c x then 1 else 0).sum := by
  induction s using Multiset.induction with
  | empty => simp
  | cons x s ih =>
    rw [Multiset.map_cons, Multiset.sum_cons, ← ih, ← Finset.sum_add_distrib]
    refine Finset.sum_congr rfl fun c _ => ?_
    by_cases h : P c x
    · rw [Multiset.filter_cons_of_pos _ h, Multiset.card_cons, if_pos h, add_comm]
    · rw [Multiset.filter_cons_of_neg _ h, if_neg h, zero_add]

theorem sum_map_swap {X Y : Type} (S : Finset Y) (f : Y → X → Nat) (s : Multiset X) : (∑ i ∈ S, (s.map (f i)).sum) = (s.map fun x => ∑ i ∈ S, f i x).sum := by
  induction s using Multiset.induction with
  | empty => simp
  | cons x s ih => simp only [Multiset.map_cons, Multiset.sum_cons, Finset.sum_add_distrib, ih]

theorem sum_const_bound {X : Type} (f : X → Nat) (n m : Nat) (s : Multiset X) (h : ∀ x ∈ s, n ≤ f x ∧ f x ≤ m) :
    n * s.card ≤ (s.map f).sum ∧ (s.map f).sum ≤ m * s.card ∧ ((s.map f).sum = m * s.card ↔ ∀ x ∈ s, f x = m) := by
  induction s using Multiset.induction with
  | empty => simp
  | cons x s ih =>
    obtain ⟨h1, h2, h3⟩ := ih fun y hy => h y (Multiset.mem_cons_of_mem hy)
    obtain ⟨h4, h5⟩ := h x (Multiset.mem_cons_self ..)
    rw [Multiset.map_cons, Multiset.sum_cons, Multiset.card_cons, Nat.mul_succ, Nat.mul_succ]
    refine ⟨by omega, by omega, ?_⟩
    rw [Multiset.forall_mem_cons, ← h3]
    constructor
    · intro h; constructor <;> omega
    · rintro ⟨h, h'⟩; omega

end Ndt
