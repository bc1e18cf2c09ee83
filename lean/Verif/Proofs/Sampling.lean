import Verif.Model.Sampling
import Verif.Proofs.GridmapMore
import Mathlib.Algebra.BigOperators.Fin
import Mathlib.Algebra.BigOperators.Intervals
import Mathlib.Algebra.BigOperators.Ring.Finset
import Mathlib.Algebra.Order.BigOperators.Ring.Finset
import Mathlib.Tactic.FieldSimp

/-! Lemmas on sampling. -/

namespace Ndt

section weights
variable {K : Type} [Field K]

theorem foldl_add_eq {α M : Type} [AddCommMonoid M] (g : α → M) : ∀ (l : List α) (x : M), l.foldl (fun a i => a + g i) x = x + (l.map g).sum
  | [], x => by simp
  | i :: l, x => by rw [List.foldl_cons, foldl_add_eq g l, List.map_cons, List.sum_cons, add_assoc]

theorem sum_range_list {M : Type} [AddCommMonoid M] (f : Nat → M) (n : Nat) : ((List.range n).map f).sum = ∑ i ∈ Finset.range n, f i := by
  show _ = ((Multiset.range n).map f).sum
  rw [← Multiset.coe_range, Multiset.map_coe, Multiset.sum_coe]

theorem interpolationWeight_eq {d : Nat} (w : Fin d → K) (c : Nat) :
    interpolationWeight w c = ∏ i : Fin d, if c.testBit i.1 then w i else 1 - w i := by
  unfold interpolationWeight
  rw [← List.prod_eq_foldl, ← Fin.prod_univ_def]
  refine Finset.prod_congr rfl fun i _ => ?_
  unfold interpolationWeightInner
  simp only [bit_cond]

theorem sum_bits (K : Type) [Field K] : ∀ (d : Nat) (w : Fin d → K), (∑ c ∈ Finset.range (2 ^ d), ∏ i : Fin d, if c.testBit i.1 then w i else 1 - w i) = 1
  | 0, w => by simp
  | d + 1, w => by
    rw [pow_succ, mul_two, Finset.sum_range_add]
    have h1 : ∀ c ∈ Finset.range (2 ^ d), (∏ i : Fin (d + 1), if c.testBit i.1 then w i else 1 - w i) =
        (∏ i : Fin d, if c.testBit i.1 then w i.castSucc else 1 - w i.castSucc) * (1 - w (Fin.last d)) := by
      intro c hc
      rw [Fin.prod_univ_castSucc]
      simp only [Fin.val_castSucc, Fin.val_last, Nat.testBit_lt_two_pow (Finset.mem_range.1 hc), Bool.false_eq_true, if_false]
    have h2 : ∀ c ∈ Finset.range (2 ^ d), (∏ i : Fin (d + 1), if (2 ^ d + c).testBit i.1 then w i else 1 - w i) =
        (∏ i : Fin d, if c.testBit i.1 then w i.castSucc else 1 - w i.castSucc) * w (Fin.last d) := by
      intro c hc
      rw [Fin.prod_univ_castSucc]
      have : ∀ i : Fin d, (2 ^ d + c).testBit i.1 = c.testBit i.1 := fun i => Nat.testBit_two_pow_add_gt i.2 c
      simp only [Fin.val_castSucc, Fin.val_last, Nat.testBit_two_pow_add_eq, Nat.testBit_lt_two_pow (Finset.mem_range.1 hc), Bool.not_false, if_true, this]
    rw [Finset.sum_congr rfl h1, Finset.sum_congr rfl h2, ← Finset.sum_mul, ← Finset.sum_mul, sum_bits K d]
    ring

theorem sum_interpolationWeight {d : Nat} (w : Fin d → K) : (∑ c ∈ Finset.range (2 ^ d), interpolationWeight w c) = 1 := by
  simp only [interpolationWeight_eq]; exact sum_bits K d w

theorem divCount_eq (d : Nat) : divCount K d = 1 / 2 ^ d := by unfold divCount; rw [twoPow_eq]; push_cast; rfl

end weights

namespace St
open Abs
variable {d : Nat} {B : Backend d} {D : Type} [Inhabited D] {K : Type} [Field K]

/-- value of the sampling functions on reachable states -/
theorem sampleWith_spec (L : B.Lawful) (dyn : Bool) (w : Nat → K) (f : D → K) (bi : Idx d) (st : St B D) (hI : RInv L dyn st) :
    (∀ x, sampleWith dyn w f bi st = some x →
      (st.valid dyn bi = true ∧ bi ∈ st.abs.allocated → x = ∑ c ∈ Finset.range (2 ^ d), w c * f (st.abs.val c (generateIndex bi c))) ∧
      (¬ (st.valid dyn bi = true ∧ bi ∈ st.abs.allocated) → x = 0)) ∧
    (st.abs.Good bi → ∃ x, sampleWith dyn w f bi st = some x) := by
  unfold sampleWith
  by_cases hv : st.valid dyn bi = true
  · rw [if_pos hv]
    by_cases hok : B.ok st.bundles bi = true
    · rw [if_pos hok]
      have hl := look_of_ok B st.bundles bi hok
      cases hg : B.get st.bundles bi with
      | none =>
        have hna : bi ∉ st.abs.allocated := by
          rw [mem_allocated_iff]; unfold bundle; rw [hl, hg]; simp
        refine ⟨?_, fun _ => ⟨0, rfl⟩⟩
        intro x hx; cases hx
        exact ⟨fun h => absurd h.2 hna, fun _ => rfl⟩
      | some b =>
        have hb : st.bundle bi = some b := by unfold bundle; rw [hl, hg]
        have ha : bi ∈ st.abs.allocated := by rw [mem_allocated_iff, hb]; rfl
        refine ⟨?_, fun _ => ⟨_, rfl⟩⟩
        intro x hx; cases hx
        refine ⟨fun _ => ?_, fun h => absurd ⟨hv, ha⟩ h⟩
        unfold evaluate
        rw [foldl_add_eq, zero_add, twoPow_eq, sum_range_list]
        refine Finset.sum_congr rfl fun c hc => ?_
        obtain ⟨a, h1, h2⟩ := hI.inv.complete bi b hb c (Finset.mem_range.1 hc)
        rw [h1]
        refine congrArg (w c * f ·) ?_
        unfold Abs.val
        show _ = (st.content c (generateIndex bi c)).getD default
        unfold St.content; rw [h2]; rfl
    · rw [if_neg hok]
      exact ⟨fun x hx => (by cases hx), fun h => absurd h.1 hok⟩
  · rw [if_neg hv]
    refine ⟨?_, fun _ => ⟨0, rfl⟩⟩
    intro x hx; cases hx
    exact ⟨fun h => absurd h.1 hv, fun _ => rfl⟩

end St
end Ndt
