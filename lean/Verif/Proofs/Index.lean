import Verif.Model.Index
import Verif.Spec.Geometry
import Mathlib.Tactic.Ring
import Mathlib.Tactic.Linarith
import Mathlib.Tactic.FieldSimp
import Mathlib.Data.Fintype.Pi
import Mathlib.Data.Set.Card
import Mathlib.Data.Fintype.BigOperators

namespace Ndt

@[simp] theorem twoPow_eq (n : Nat) : twoPow n = 2 ^ n := by
  induction n with
  | zero => rfl
  | succ n ih => simp [twoPow, ih, Nat.shiftLeft_eq]; ring

theorem bit_cond (c i : Nat) : (c / twoPow i) &&& 1 ≠ 0 ↔ c.testBit i = true := by
  rw [twoPow_eq, Nat.testBit, Nat.shiftRight_eq_div_pow, Nat.and_comm]
  simp

theorem getIndexInner_eq (b : Int) (c i : Nat) :
    getIndexInner b c i = if c.testBit i then (b + 1) / 2 else b / 2 := by
  unfold getIndexInner
  simp only [bit_cond, Int.shiftRight_eq_div_pow]
  split <;> norm_num
  omega

theorem getIndexInner_eq_iff (b k : Int) (c i : Nat) :
    getIndexInner b c i = k ↔
      (b = 2 * k - (if c.testBit i then 1 else 0) ∨ b = 2 * k - (if c.testBit i then 1 else 0) + 1) := by
  rw [getIndexInner_eq]
  split <;> omega

theorem generateIndex_eq_iff {d : Nat} (b k : Idx d) (c : Nat) :
    generateIndex b c = k ↔ ∀ i : Fin d,
      (b i = 2 * k i - (if c.testBit i then 1 else 0) ∨ b i = 2 * k i - (if c.testBit i then 1 else 0) + 1) := by
  constructor
  · intro h i
    exact (getIndexInner_eq_iff _ _ _ _).1 (congrFun h i)
  · intro h
    funext i
    exact (getIndexInner_eq_iff _ _ _ _).2 (h i)

theorem forEach_eq (a n : Nat) : forEach a n = List.range' a n := by
  induction n generalizing a with
  | zero => rfl
  | succ n ih => simp [forEach, ih, List.range'_succ]

theorem applyIndices_eq {d : Nat} (bi : Idx d) (a n : Nat) :
    applyIndices bi a n = (List.range' a n).map (fun c => (c, generateIndex bi c)) := by
  induction n generalizing a with
  | zero => rfl
  | succ n ih => simp [applyIndices, ih, List.range'_succ]

theorem integerSequenceMaker_eq (n : Nat) : integerSequenceMaker n = List.range n := by
  induction n using Nat.strong_induction_on with
  | _ n ih =>
    match n with
    | 0 => unfold integerSequenceMaker; rfl
    | 1 => unfold integerSequenceMaker; rfl
    | n + 2 =>
      unfold integerSequenceMaker
      have h1 : (n + 2) >>> 1 < n + 2 := by simp only [Nat.shiftRight_one]; omega
      have h2 : (n + 2) - ((n + 2) >>> 1) < n + 2 := by simp only [Nat.shiftRight_one]; omega
      rw [ih _ h1, ih _ h2]
      unfold mergeAndRenumber
      rw [List.length_range]
      have h3 : n + 2 = ((n + 2) >>> 1) + ((n + 2) - ((n + 2) >>> 1)) := by omega
      conv_rhs => rw [h3, List.range_add]

theorem mergeAnd_iff (l : List Bool) : mergeAnd l = true ↔ ∀ b ∈ l, b = true := by
  unfold mergeAnd
  induction l with
  | nil => simp [mergeFold]
  | cons a l ih => simp [mergeFold, ih]

theorem mergeOr_iff (l : List Bool) : mergeOr l = true ↔ ∃ b ∈ l, b = true := by
  unfold mergeOr
  induction l with
  | nil => simp [mergeFold]
  | cons a l ih => simp [mergeFold] at ih ⊢; rw [ih]

/-- Every bit mask `c < 2^d` is determined by its bits. -/
theorem bits_ext {d c c' : Nat} (hc : c < 2 ^ d) (hc' : c' < 2 ^ d)
    (h : ∀ i < d, c.testBit i = c'.testBit i) : c = c' := by
  apply Nat.eq_of_testBit_eq
  intro i
  by_cases hi : i < d
  · exact h i hi
  · have : 2 ^ d ≤ 2 ^ i := Nat.pow_le_pow_right (by norm_num) (by omega)
    rw [Nat.testBit_lt_two_pow (by omega), Nat.testBit_lt_two_pow (by omega)]

section
variable {K : Type} [Field K] [LinearOrder K] [IsStrictOrderedRing K] [FloorRing K]

theorem bundleResolutionInv_eq (r : K) : bundleResolutionInv r = 2 / r := by
  unfold bundleResolutionInv bundleResolution
  by_cases hr : r = 0
  · subst hr; simp
  · field_simp

theorem toBundleIndex_spec {d : Nat} {r : K} (hr : 0 < r) (p : Pt K d) (b : Idx d) :
    toBundleIndex r p = b ↔ Spec.InBundle r b p := by
  have key : ∀ i, toBundleIndex r p i = b i ↔ ((b i : K) * (r / 2) ≤ p i ∧ p i < ((b i : K) + 1) * (r / 2)) := by
    intro i
    unfold toBundleIndex
    rw [bundleResolutionInv_eq, Int.floor_eq_iff]
    have e : p i * (2 / r) = p i / (r / 2) := by field_simp
    have h2 : 0 < r / 2 := by positivity
    rw [e, le_div_iff₀ h2, div_lt_iff₀ h2]
  constructor
  · intro h i; exact (key i).1 (congrFun h i)
  · intro h; funext i; exact (key i).2 (h i)

theorem inCell_of_inBundle {d : Nat} {r : K} (hr : 0 < r) (p : Pt K d) (b : Idx d) (c : Nat)
    (h : Spec.InBundle r b p) : Spec.InCell r c (generateIndex b c) p := by
  intro i
  obtain ⟨h1, h2⟩ := h i
  have hk : generateIndex b c i = getIndexInner (b i) c i.1 := rfl
  generalize hk' : generateIndex b c i = k at *
  have := (getIndexInner_eq_iff (b i) k c i.1).1 hk.symm
  unfold Spec.shift
  by_cases hb : c.testBit i.1
  · simp only [hb, if_true] at this ⊢
    rcases this with h | h <;> (rw [h] at h1 h2; push_cast at h1 h2) <;> constructor <;> nlinarith
  · simp only [hb] at this ⊢
    simp at this ⊢
    rcases this with h | h <;> (rw [h] at h1 h2; push_cast at h1 h2) <;> constructor <;> nlinarith

theorem inCell_unique {d : Nat} {r : K} (hr : 0 < r) (p : Pt K d) (c : Nat) (k k' : Idx d)
    (h : Spec.InCell r c k p) (h' : Spec.InCell r c k' p) : k = k' := by
  funext i
  obtain ⟨h1, h2⟩ := h i
  obtain ⟨h3, h4⟩ := h' i
  have a1 : ((k i : K) - Spec.shift K c i.1) < ((k' i : K) + 1 - Spec.shift K c i.1) :=
    lt_of_mul_lt_mul_right (lt_of_le_of_lt h1 h4) hr.le
  have a2 : ((k' i : K) - Spec.shift K c i.1) < ((k i : K) + 1 - Spec.shift K c i.1) :=
    lt_of_mul_lt_mul_right (lt_of_le_of_lt h3 h2) hr.le
  have b1 : (k i : K) < ((k' i + 1 : Int) : K) := by push_cast; linarith
  have b2 : (k' i : K) < ((k i + 1 : Int) : K) := by push_cast; linarith
  rw [Int.cast_lt] at b1 b2
  omega

end
end Ndt
