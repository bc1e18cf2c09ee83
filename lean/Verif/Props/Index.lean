import Verif.Proofs.Index
import Mathlib.Data.Rat.Floor
import Mathlib.Tactic.NormNum
import Mathlib.Data.Fin.VecNotation
import Mathlib.Tactic.FinCases

/-! Property theorems C01–C04: index arithmetic and geometry. -/

namespace Ndt

section C01
variable {K : Type} [Field K] [LinearOrder K] [IsStrictOrderedRing K] [FloorRing K]

/-- **C01.** For every resolution `r > 0`, every point and every grid `c`, the distribution index computed by the map is the
index of *the* cell of grid `c` that contains the point (existence and uniqueness). -/
theorem C01_point_in_selected_cell {d : Nat} {r : K} (hr : 0 < r) (p : Pt K d) (c : Nat) (k : Idx d) :
    generateIndex (toBundleIndex r p) c = k ↔ Spec.InCell r c k p := by
  have h := inCell_of_inBundle hr p _ c ((toBundleIndex_spec hr p _).1 rfl)
  constructor
  · rintro rfl; exact h
  · intro h'; exact inCell_unique hr p c _ _ h h'

/-- **C01** (closed form): the selected index is `⌊p/r + shift⌋` in every dimension. -/
theorem C01_selected_cell_floor {d : Nat} {r : K} (hr : 0 < r) (p : Pt K d) (c : Nat) (i : Fin d) :
    generateIndex (toBundleIndex r p) c i = ⌊p i / r + (if c.testBit i.1 then 1 / 2 else 0)⌋ := by
  obtain ⟨h1, h2⟩ := (C01_point_in_selected_cell hr p c _).1 rfl i
  symm
  rw [Int.floor_eq_iff]
  unfold Spec.shift at h1 h2
  rw [← le_div_iff₀ hr] at h1
  rw [← div_lt_iff₀ hr] at h2
  constructor <;> linarith

/-- **C01** (bundles): the bundle index computed by the map is the index of the bundle that contains the point. -/
theorem C01_bundle_contains_point {d : Nat} {r : K} (hr : 0 < r) (p : Pt K d) (b : Idx d) :
    toBundleIndex r p = b ↔ Spec.InBundle r b p := toBundleIndex_spec hr p b

/-- Non-vacuity: a point with a negative and a positive coordinate, resolution 1, shifted grid 1. -/
example : generateIndex (toBundleIndex (1 : ℚ) ![-0.3, 2.6]) 1 = ![0, 2] ∧ (0 : ℚ) < 1 := by
  constructor
  · rw [C01_point_in_selected_cell (by norm_num)]
    intro i
    fin_cases i <;> simp [Spec.shift, Nat.testBit] <;> norm_num
  · norm_num
end C01

section C02

/-- **C02.** The bundles that contain distribution `(c,k)` are exactly the `2×…×2` block starting at `2k - bit`. -/
theorem C02_sharing_block {d : Nat} (c : Nat) (k b : Idx d) :
    generateIndex b c = k ↔
      ∀ i : Fin d, (b i = 2 * k i - (if c.testBit i then 1 else 0) ∨
                    b i = 2 * k i - (if c.testBit i then 1 else 0) + 1) :=
  generateIndex_eq_iff b k c

/-- **C02** (count): every distribution belongs to exactly `2^d` bundles. -/
theorem C02_sharing_count {d : Nat} (c : Nat) (k : Idx d) :
    {b : Idx d | generateIndex b c = k}.ncard = 2 ^ d := by
  let s : Fin d → Int := fun i => if c.testBit i then 1 else 0
  have e : {b : Idx d | generateIndex b c = k} ≃ (Fin d → Bool) :=
    { toFun := fun b i => decide (b.1 i = 2 * k i - s i + 1)
      invFun := fun f => ⟨fun i => 2 * k i - s i + (if f i then 1 else 0), by
        simp only [Set.mem_ofPred_eq]
        rw [generateIndex_eq_iff]
        intro i
        simp only [s]
        cases f i <;> simp⟩
      left_inv := by
        rintro ⟨b, hb⟩
        simp only [Set.mem_ofPred_eq] at hb
        rw [generateIndex_eq_iff] at hb
        apply Subtype.ext
        funext i
        simp only [s]
        have := hb i
        split at this <;> simp_all <;> rcases this with h | h <;> simp [h]
      right_inv := by
        intro f
        funext i
        by_cases h : f i <;> simp [h] }
  rw [← Nat.card_coe_set_eq, Nat.card_congr e]
  simp

/-- **C02** (neighbours): two bundles adjacent in dimension `i` contain the same distribution of grid `c`
iff the bit of `c` in dimension `i` equals the parity of the lower one's coordinate. -/
theorem C02_neighbours_share_iff {d : Nat} (b : Idx d) (i : Fin d) (c : Nat) :
    generateIndex b c = generateIndex (Function.update b i (b i + 1)) c ↔ (c.testBit i = true ↔ b i % 2 = 1) := by
  constructor
  · intro h
    have h' := congrFun h i
    simp only [generateIndex, Function.update_self, getIndexInner_eq] at h'
    split at h' <;> simp_all <;> omega
  · intro h
    funext j
    by_cases hj : j = i
    · subst hj
      simp only [generateIndex, Function.update_self, getIndexInner_eq]
      split <;> simp_all <;> omega
    · simp [generateIndex, Function.update_of_ne hj]

/-- **C02** (neighbours, count): face-adjacent bundles share exactly `2^(d-1)` of their `2^d` distributions. -/
theorem C02_neighbours_share_count {d : Nat} (b : Idx d) (i : Fin d) :
    ((Finset.range (2 ^ d)).filter
      (fun c => generateIndex b c = generateIndex (Function.update b i (b i + 1)) c)).card = 2 ^ (d - 1) := by
  have hd : 0 < d := i.pos
  have key : ∀ β : Bool, ((Finset.range (2 ^ d)).filter (fun c => c.testBit i.1 = β)).card = 2 ^ (d - 1) := by
    have hx : ∀ c, c < 2 ^ d → c ^^^ 2 ^ i.1 < 2 ^ d := fun c hc =>
      Nat.xor_lt_two_pow hc (Nat.pow_lt_pow_right (by norm_num) i.2)
    have heq : ((Finset.range (2 ^ d)).filter (fun c => c.testBit i.1 = true)).card =
        ((Finset.range (2 ^ d)).filter (fun c => c.testBit i.1 = false)).card := by
      apply Finset.card_bij (fun c _ => c ^^^ 2 ^ i.1)
      · intro c hc
        simp only [Finset.mem_filter, Finset.mem_range] at hc ⊢
        refine ⟨hx _ hc.1, ?_⟩
        rw [Nat.testBit_xor, hc.2, Nat.testBit_two_pow_self]; rfl
      · intro a _ a' _ h
        have := congrArg (fun z => z ^^^ 2 ^ i.1) h
        simpa [Nat.xor_assoc] using this
      · intro c hc
        simp only [Finset.mem_filter, Finset.mem_range] at hc
        refine ⟨c ^^^ 2 ^ i.1, ?_, by simp [Nat.xor_assoc]⟩
        simp only [Finset.mem_filter, Finset.mem_range]
        refine ⟨hx _ hc.1, ?_⟩
        rw [Nat.testBit_xor, hc.2, Nat.testBit_two_pow_self]; rfl
    have hsum := Finset.card_filter_add_card_filter_not (s := Finset.range (2 ^ d)) (fun c => c.testBit i.1 = true)
    have hnot : (Finset.range (2 ^ d)).filter (fun c => ¬ c.testBit i.1 = true) =
        (Finset.range (2 ^ d)).filter (fun c => c.testBit i.1 = false) := by
      apply Finset.filter_congr; intro c _; simp
    rw [hnot, Finset.card_range] at hsum
    have h2 : 2 ^ d = 2 * 2 ^ (d - 1) := by
      rw [← pow_succ']; congr 1; omega
    intro β
    cases β <;> omega
  rw [← key (decide (b i % 2 = 1))]
  congr 1
  apply Finset.filter_congr
  intro c _
  rw [C02_neighbours_share_iff]
  by_cases h : b i % 2 = 1 <;> simp [h]

/-- Non-vacuity / sanity: in 2D the distribution `(c,k) = (1, (0,3))` belongs to the bundles `(-1..0, 6..7)`. -/
example : generateIndex (![-1, 7] : Idx 2) 1 = ![0, 3] := by decide
end C02

section C03

/-- **C03.** `make_integer_sequence<N>` is `0,1,…,N-1`. -/
theorem C03_integer_sequence (n : Nat) : integerSequenceMaker n = List.range n := integerSequenceMaker_eq n

/-- **C03.** `apply_indices` calls the functor for every bin `0,…,2^d-1` exactly once, in ascending order, with that bin's index. -/
theorem C03_apply_indices {d : Nat} (bi : Idx d) :
    applyIndices bi 0 (twoPow d) = (List.range (2 ^ d)).map (fun c => (c, generateIndex bi c)) := by
  rw [applyIndices_eq, twoPow_eq, List.range_eq_range']

/-- **C03.** the list of all bin indices built at once agrees with the one enumerated by `apply_indices`. -/
theorem C03_generate_indices {d : Nat} (bi : Idx d) :
    generateIndices bi = (applyIndices bi 0 (twoPow d)).map Prod.snd := by
  rw [C03_apply_indices, generateIndices, integerSequenceMaker_eq, twoPow_eq]
  simp [Function.comp_def]

/-- **C03.** `for_each<N>` visits `0,…,N-1` in order. -/
theorem C03_for_each (n : Nat) : forEach 0 n = List.range n := by
  rw [forEach_eq, List.range_eq_range']

/-- **C03.** the variadic merges are the quantifiers over their argument list. -/
theorem C03_merge (l : List Bool) :
    (mergeAnd l = true ↔ ∀ b ∈ l, b = true) ∧ (mergeOr l = true ↔ ∃ b ∈ l, b = true) :=
  ⟨mergeAnd_iff l, mergeOr_iff l⟩

example : integerSequenceMaker 5 = [0, 1, 2, 3, 4] := by rw [C03_integer_sequence]; rfl
end C03

section C04

theorem sshiftRight_one_toInt (b : BitVec 32) : (b.sshiftRight 1).toInt = b.toInt / 2 := by
  rw [BitVec.toInt_sshiftRight, Int.shiftRight_eq_div_pow]; rfl

theorem and_one_toInt (b : BitVec 32) : (b &&& 1#32).toInt = b.toInt % 2 := by
  have h1 : (b &&& 1#32).toNat = b.toNat % 2 := by
    rw [BitVec.toNat_and]; simp [Nat.and_one_is_mod]
  have h2 : (b &&& 1#32).toInt = ((b.toNat % 2 : Nat) : Int) := by
    rw [BitVec.toInt_eq_toNat_of_lt]
    · rw [h1]
    · rw [h1]; omega
  rw [h2, BitVec.toInt_eq_toNat_cond]
  split <;> omega

/-- **C04.** On 32-bit machine integers the computed coordinate equals the mathematical one
(floor division for bit 0, ceiling division for bit 1) for all inputs, and the exact value of the addition is representable,
so the signed addition cannot overflow. -/
theorem C04_machine_arithmetic_exact (b : BitVec 32) (c i : Nat) :
    (getIndexInner32 b c i).toInt = (if c.testBit i then (b.toInt + 1) / 2 else b.toInt / 2) ∧
    -(2 ^ 31) ≤ b.toInt / 2 + b.toInt % 2 ∧ b.toInt / 2 + b.toInt % 2 < 2 ^ 31 := by
  have hlo : -(2 ^ 31) ≤ b.toInt := by have := BitVec.le_toInt b; simpa using this
  have hhi : b.toInt < 2 ^ 31 := by have := BitVec.toInt_lt (x := b); simpa using this
  refine ⟨?_, by omega, by omega⟩
  unfold getIndexInner32
  simp only [bit_cond]
  split
  · rw [BitVec.toInt_add, sshiftRight_one_toInt, and_one_toInt, Int.bmod_eq_of_le] <;> omega
  · rw [sshiftRight_one_toInt]

/-- **C04.** The machine computation refines the integer model used by all other theorems. -/
theorem C04_machine_refines_model (b : BitVec 32) (c i : Nat) :
    (getIndexInner32 b c i).toInt = getIndexInner b.toInt c i := by
  rw [(C04_machine_arithmetic_exact b c i).1, getIndexInner_eq]

example : (getIndexInner32 (BitVec.ofInt 32 (-7)) 1 0).toInt = -3 := by decide
end C04
end Ndt
