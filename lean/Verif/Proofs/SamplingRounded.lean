import Verif.Model.SamplingRounded
import Verif.Proofs.Sampling
import Verif.Proofs.RasterRounded
import Verif.Props.Ieee
import Mathlib.Algebra.Order.Ring.Pow

/-! Lemmas on sampling with rounded arithmetic. -/

namespace Ndt

section bits
variable {K : Type} [Field K] [LinearOrder K] [IsStrictOrderedRing K] [FloorRing K]

/-- numbers with `t` bits are not changed -/
theorem toBits_of_hasBits (t : Nat) (ht : 1 ≤ t) {z : K} (h : Spec.HasBits t z) : toBits t z = z := by
  have := (C77_ieee t ht z).2.1 z h
  rw [sub_self, abs_zero] at this
  exact sub_eq_zero.1 (abs_eq_zero.1 (le_antisymm this (abs_nonneg _)))

theorem toBits_one (t : Nat) (ht : 1 ≤ t) : toBits t (1 : K) = 1 := by
  have := toBits_two_pow (K := K) t ht 0
  simpa using this

/-- multiples of `2^-d` up to 1 -/
theorem toBits_fraction (t d : Nat) (ht : 1 ≤ t) (hd : d ≤ t) (k : Nat) (hk : k ≤ 2 ^ d) : toBits t ((k : K) / 2 ^ d) = (k : K) / 2 ^ d := by
  rcases hk.lt_or_eq with hk | rfl
  · refine toBits_of_hasBits t ht ⟨k, -(d : Int), ?_, ?_⟩
    · rw [abs_of_nonneg (by omega)]
      have : 2 ^ d ≤ 2 ^ t := Nat.pow_le_pow_right (by decide) hd
      exact_mod_cast hk.trans_le this
    · rw [zpow_neg, zpow_natCast, div_eq_mul_inv]; push_cast; rfl
  · push_cast
    rw [div_self (by positivity)]
    exact toBits_one t ht

/-- the floor of a number with `t` bits has `t` bits -/
theorem hasBits_floor (t : Nat) {z : K} (h : Spec.HasBits t z) : Spec.HasBits t ((⌊z⌋ : Int) : K) := by
  obtain ⟨m, e, hm, hz⟩ := h
  rcases le_or_gt 0 e with he | he
  · obtain ⟨n, rfl⟩ := Int.eq_ofNat_of_zero_le he
    have hi : z = ((m * 2 ^ n : Int) : K) := by rw [hz, zpow_natCast]; push_cast; rfl
    rw [hi, Int.floor_intCast]
    exact ⟨m, n, hm, by rw [zpow_natCast]; push_cast; rfl⟩
  · refine ⟨⌊z⌋, 0, ?_, by simp⟩
    have h1 : (2 : K) ^ e ≤ 1 := zpow_le_one_of_nonpos₀ one_le_two he.le
    have h0 : (0 : K) < (2 : K) ^ e := zpow_pos two_pos e
    obtain ⟨a, b⟩ := abs_lt.1 hm
    rcases le_or_gt 0 m with hm0 | hm0
    · have c : (0 : K) ≤ m := by exact_mod_cast hm0
      have hz0 : 0 ≤ z := by rw [hz]; exact mul_nonneg c h0.le
      have hz1 : z ≤ m := by rw [hz]; exact mul_le_of_le_one_right c h1
      have d1 := Int.floor_nonneg.2 hz0
      have d2 : ⌊z⌋ ≤ m := by
        have := (Int.floor_le z).trans hz1
        exact_mod_cast this
      rw [abs_lt]; omega
    · have c : (m : K) ≤ 0 := by exact_mod_cast hm0.le
      have hz0 : z ≤ 0 := by rw [hz]; exact mul_nonpos_of_nonpos_of_nonneg c h0.le
      have hz1 : (m : K) ≤ z := by rw [hz]; nlinarith
      have d1 : m ≤ ⌊z⌋ := Int.le_floor.2 hz1
      have d2 : ⌊z⌋ ≤ 0 := by
        have := (Int.floor_le z).trans hz0
        exact_mod_cast this
      rw [abs_lt]; omega

end bits

section sums
variable {K : Type} [Field K] [LinearOrder K] [IsStrictOrderedRing K]

/-- a rounded sum of rounded terms, from the left -/
def sumR (R : Rounding K) (g : Nat → K) (n : Nat) : K := (List.range n).foldl (fun a i => R.rnd (a + R.rnd (g i))) 0

omit [IsStrictOrderedRing K] in
theorem sumR_succ (R : Rounding K) (g : Nat → K) (n : Nat) : sumR R g (n + 1) = R.rnd (sumR R g n + R.rnd (g n)) := by
  unfold sumR
  rw [List.range_succ, List.foldl_append, List.foldl_cons, List.foldl_nil]

theorem sumR_nonneg (R : Rounding K) (g : Nat → K) (n : Nat) (h : ∀ i, i < n → 0 ≤ g i) : 0 ≤ sumR R g n := by
  induction n with
  | zero => exact le_refl _
  | succ n ih =>
    rw [sumR_succ]
    exact R.rnd_nonneg (add_nonneg (ih fun i hi => h i (by omega)) (R.rnd_nonneg (h n (by omega))))

theorem sumR_upper (R : Rounding K) (g : Nat → K) (n : Nat) (h : ∀ i, i < n → 0 ≤ g i) :
    sumR R g n ≤ (∑ i ∈ Finset.range n, g i) * (1 + R.u) ^ (n + 1) := by
  have hu := R.nonneg
  induction n with
  | zero => simp [sumR]
  | succ n ih =>
    rw [sumR_succ, Finset.sum_range_succ]
    have h0 := sumR_nonneg R g n fun i hi => h i (by omega)
    have h1 := ih fun i hi => h i (by omega)
    have h2 := R.sides (h n (by omega))
    have h3 := R.rnd_nonneg (h n (by omega))
    refine (R.sides (add_nonneg h0 h3)).2.trans ?_
    have h4 : g n * (1 + R.u) ≤ g n * (1 + R.u) ^ (n + 1) :=
      mul_le_mul_of_nonneg_left (le_self_pow₀ (by linarith) (by omega)) (h n (by omega))
    calc _ ≤ ((∑ i ∈ Finset.range n, g i) * (1 + R.u) ^ (n + 1) + g n * (1 + R.u) ^ (n + 1)) * (1 + R.u) :=
          mul_le_mul_of_nonneg_right (add_le_add h1 (h2.2.trans h4)) (by linarith)
      _ = _ := by ring

theorem sumR_lower (R : Rounding K) (hu1 : R.u ≤ 1) (g : Nat → K) (n : Nat) (h : ∀ i, i < n → 0 ≤ g i) :
    (∑ i ∈ Finset.range n, g i) * (1 - R.u) ^ (n + 1) ≤ sumR R g n := by
  have hu := R.nonneg
  induction n with
  | zero => simp [sumR]
  | succ n ih =>
    rw [sumR_succ, Finset.sum_range_succ]
    have h0 := sumR_nonneg R g n fun i hi => h i (by omega)
    have h1 := ih fun i hi => h i (by omega)
    have h2 := R.sides (h n (by omega))
    have h3 := R.rnd_nonneg (h n (by omega))
    refine le_trans ?_ (R.sides (add_nonneg h0 h3)).1
    have h4 : g n * (1 - R.u) ^ (n + 1) ≤ g n * (1 - R.u) :=
      mul_le_mul_of_nonneg_left (pow_le_of_le_one (by linarith) (by linarith) (by omega)) (h n (by omega))
    calc (∑ i ∈ Finset.range n, g i + g n) * (1 - R.u) ^ (n + 1 + 1)
          = ((∑ i ∈ Finset.range n, g i) * (1 - R.u) ^ (n + 1) + g n * (1 - R.u) ^ (n + 1)) * (1 - R.u) := by ring
      _ ≤ _ := mul_le_mul_of_nonneg_right (add_le_add h1 (h4.trans h2.1)) (by linarith)

/-- a mean of numbers up to 1 does not exceed 1 -/
theorem sumR_unit [FloorRing K] (t d : Nat) (ht : 1 ≤ t) (hd : d ≤ t) (g : Nat → K) (hg : ∀ i, i < 2 ^ d → 0 ≤ g i ∧ g i ≤ 1 / 2 ^ d) :
    ∀ n, n ≤ 2 ^ d → sumR (ieee K t ht) g n ≤ (n : K) / 2 ^ d
  | 0, _ => by simp [sumR]
  | n + 1, hn => by
    have ih := sumR_unit t d ht hd g hg n (by omega)
    rw [sumR_succ]
    have e1 : toBits t ((1 : K) / 2 ^ d) = 1 / 2 ^ d := by
      have := toBits_fraction (K := K) t d ht hd 1 Nat.one_le_two_pow
      simpa using this
    have h1 : (ieee K t ht).rnd (g n) ≤ 1 / 2 ^ d := by
      have := (ieee K t ht).mono _ _ (hg n (by omega)).2
      exact this.trans (le_of_eq e1)
    have h2 := (ieee K t ht).mono _ _ (add_le_add ih h1)
    refine h2.trans (le_of_eq ?_)
    have := toBits_fraction (K := K) t d ht hd (n + 1) hn
    rw [← add_div]
    push_cast at this ⊢
    exact this

/-- rounded products, from the left -/
theorem foldl_mul_upper (R : Rounding K) {α : Type} (b e : α → K) : ∀ (l : List α) (a x : K), 0 ≤ a → a ≤ x → (∀ i ∈ l, 0 ≤ b i ∧ b i ≤ e i * (1 + R.u)) →
    0 ≤ (l.map b).foldl (fun a b => R.rnd (a * b)) a ∧ (l.map b).foldl (fun a b => R.rnd (a * b)) a ≤ x * (l.map e).prod * (1 + R.u) ^ (2 * l.length)
  | [], a, x, h0, hx, _ => by simpa using ⟨h0, hx⟩
  | i :: l, a, x, h0, hx, h => by
    have hu := R.nonneg
    obtain ⟨b0, b1⟩ := h i (List.mem_cons_self ..)
    have h1 : 0 ≤ R.rnd (a * b i) := R.rnd_nonneg (mul_nonneg h0 b0)
    have h2 : R.rnd (a * b i) ≤ x * e i * (1 + R.u) ^ 2 := by
      refine (R.sides (mul_nonneg h0 b0)).2.trans ?_
      calc _ ≤ (x * (e i * (1 + R.u))) * (1 + R.u) := mul_le_mul_of_nonneg_right (mul_le_mul hx b1 b0 (h0.trans hx)) (by linarith)
        _ = _ := by ring
    obtain ⟨h3, h4⟩ := foldl_mul_upper R b e l (R.rnd (a * b i)) _ h1 h2 fun j hj => h j (List.mem_cons_of_mem _ hj)
    refine ⟨h3, h4.trans (le_of_eq ?_)⟩
    rw [List.map_cons, List.prod_cons, List.length_cons]
    ring

theorem foldl_mul_lower (R : Rounding K) (hu1 : R.u ≤ 1) {α : Type} (b e : α → K) : ∀ (l : List α) (a x : K), 0 ≤ x → x ≤ a → (∀ i ∈ l, 0 ≤ e i ∧ e i * (1 - R.u) ≤ b i) →
    x * (l.map e).prod * (1 - R.u) ^ (2 * l.length) ≤ (l.map b).foldl (fun a b => R.rnd (a * b)) a
  | [], a, x, h0, hx, _ => by simpa using hx
  | i :: l, a, x, h0, hx, h => by
    have hu := R.nonneg
    obtain ⟨e0, b1⟩ := h i (List.mem_cons_self ..)
    have e1 : 0 ≤ e i * (1 - R.u) := mul_nonneg e0 (by linarith)
    have hb := mul_nonneg (h0.trans hx) (e1.trans b1)
    have h2 : x * e i * (1 - R.u) ^ 2 ≤ R.rnd (a * b i) := by
      refine le_trans ?_ (R.sides hb).1
      calc x * e i * (1 - R.u) ^ 2 = (x * (e i * (1 - R.u))) * (1 - R.u) := by ring
        _ ≤ _ := mul_le_mul_of_nonneg_right (mul_le_mul hx b1 e1 (h0.trans hx)) (by linarith)
    have h4 := foldl_mul_lower R hu1 b e l (R.rnd (a * b i)) _ (mul_nonneg (mul_nonneg h0 e0) (by positivity)) h2 fun j hj => h j (List.mem_cons_of_mem _ hj)
    refine le_trans (le_of_eq ?_) h4
    rw [List.map_cons, List.prod_cons, List.length_cons]
    ring

/-- products of numbers up to 1 do not exceed 1 -/
theorem foldl_mul_unit (R : Rounding K) (h1 : R.rnd 1 = 1) : ∀ (l : List K) (a : K), 0 ≤ a → a ≤ 1 → (∀ x ∈ l, 0 ≤ x ∧ x ≤ 1) →
    0 ≤ l.foldl (fun a b => R.rnd (a * b)) a ∧ l.foldl (fun a b => R.rnd (a * b)) a ≤ 1
  | [], a, h0, h, _ => ⟨h0, h⟩
  | x :: l, a, h0, h, hl => by
    obtain ⟨x0, x1⟩ := hl x (List.mem_cons_self ..)
    refine foldl_mul_unit R h1 l _ (R.rnd_nonneg (mul_nonneg h0 x0)) ?_ fun y hy => hl y (List.mem_cons_of_mem _ hy)
    rw [← h1]
    exact R.mono _ _ (mul_le_one₀ h x0 x1)

end sums

section weights
variable {K : Type} [Field K] [LinearOrder K] [IsStrictOrderedRing K] {d : Nat}

omit [IsStrictOrderedRing K] in
theorem interpolationWeightR_eq (R : Arith K) (w : Fin d → K) (c : Nat) :
    interpolationWeightR R w c = ((List.finRange d).map fun i => if c.testBit i.1 then w i else R.T.rnd (1 - w i)).foldl (fun a b => R.T.rnd (a * b)) 1 := by
  unfold interpolationWeightR interpolationWeightInnerR
  simp only [bit_cond]

/-- the computed weight of a bin against the exact product of the weights of the dimensions -/
theorem interpolationWeightR_bounds (R : Arith K) (hu1 : R.T.u ≤ 1) (w : Fin d → K) (hw : ∀ i, 0 ≤ w i ∧ w i ≤ 1) (c : Nat) :
    interpolationWeight w c * (1 - R.T.u) ^ (2 * d) ≤ interpolationWeightR R w c ∧ interpolationWeightR R w c ≤ interpolationWeight w c * (1 + R.T.u) ^ (2 * d) ∧
    0 ≤ interpolationWeightR R w c ∧ 0 ≤ interpolationWeight w c := by
  have hu := R.T.nonneg
  have hprod : interpolationWeight w c = ((List.finRange d).map fun i : Fin d => if c.testBit i.1 then w i else 1 - w i).prod := by
    rw [interpolationWeight_eq, Fin.prod_univ_def]
  have key : ∀ i : Fin d, 0 ≤ (if c.testBit i.1 then w i else 1 - w i) ∧
      (if c.testBit i.1 then w i else 1 - w i) * (1 - R.T.u) ≤ (if c.testBit i.1 then w i else R.T.rnd (1 - w i)) ∧
      0 ≤ (if c.testBit i.1 then w i else R.T.rnd (1 - w i)) ∧
      (if c.testBit i.1 then w i else R.T.rnd (1 - w i)) ≤ (if c.testBit i.1 then w i else 1 - w i) * (1 + R.T.u) := by
    intro i
    obtain ⟨h0, h1⟩ := hw i
    cases c.testBit i.1
    · simp only [Bool.false_eq_true, if_false]
      have h2 : 0 ≤ 1 - w i := by linarith
      exact ⟨h2, (R.T.sides h2).1, R.T.rnd_nonneg h2, (R.T.sides h2).2⟩
    · simp only [if_true]
      exact ⟨h0, by nlinarith, h0, by nlinarith⟩
  rw [interpolationWeightR_eq]
  have a := foldl_mul_upper R.T (fun i : Fin d => if c.testBit i.1 then w i else R.T.rnd (1 - w i)) (fun i => if c.testBit i.1 then w i else 1 - w i) (List.finRange d) 1 1
    zero_le_one le_rfl fun i _ => ⟨(key i).2.2.1, (key i).2.2.2⟩
  have b := foldl_mul_lower R.T hu1 (fun i : Fin d => if c.testBit i.1 then w i else R.T.rnd (1 - w i)) (fun i => if c.testBit i.1 then w i else 1 - w i) (List.finRange d) 1 1
    zero_le_one le_rfl fun i _ => ⟨(key i).1, (key i).2.1⟩
  rw [List.length_finRange, one_mul, ← hprod] at a b
  refine ⟨b, a.2, a.1, ?_⟩
  rw [interpolationWeight_eq]
  exact Finset.prod_nonneg fun i _ => (key i).1

/-- multilinear interpolation of values in `[0, 1]` is Lipschitz in the weights -/
theorem interpolation_lipschitz (K : Type) [Field K] [LinearOrder K] [IsStrictOrderedRing K] (δ : K) : ∀ (d : Nat) (w v : Fin d → K) (f : Nat → K), (∀ i, 0 ≤ w i ∧ w i ≤ 1) → (∀ i, 0 ≤ v i ∧ v i ≤ 1) →
    (∀ i, |w i - v i| ≤ δ) → (∀ c, 0 ≤ f c ∧ f c ≤ 1) →
    |(∑ c ∈ Finset.range (2 ^ d), (∏ i : Fin d, if c.testBit i.1 then w i else 1 - w i) * f c) -
      ∑ c ∈ Finset.range (2 ^ d), (∏ i : Fin d, if c.testBit i.1 then v i else 1 - v i) * f c| ≤ d * δ
  | 0, w, v, f, _, _, _, _ => by simp
  | d + 1, w, v, f, hw, hv, hd, hf => by
    have split : ∀ u : Fin (d + 1) → K, (∑ c ∈ Finset.range (2 ^ (d + 1)), (∏ i : Fin (d + 1), if c.testBit i.1 then u i else 1 - u i) * f c) =
        (∑ c ∈ Finset.range (2 ^ d), (∏ i : Fin d, if c.testBit i.1 then u i.castSucc else 1 - u i.castSucc) * f c) * (1 - u (Fin.last d)) +
        (∑ c ∈ Finset.range (2 ^ d), (∏ i : Fin d, if c.testBit i.1 then u i.castSucc else 1 - u i.castSucc) * f (2 ^ d + c)) * u (Fin.last d) := by
      intro u
      rw [pow_succ, mul_two, Finset.sum_range_add, Finset.sum_mul, Finset.sum_mul]
      refine congrArg₂ _ (Finset.sum_congr rfl fun c hc => ?_) (Finset.sum_congr rfl fun c hc => ?_)
      · rw [Fin.prod_univ_castSucc]
        simp only [Fin.val_castSucc, Fin.val_last, Nat.testBit_lt_two_pow (Finset.mem_range.1 hc), Bool.false_eq_true, if_false]
        ring
      · rw [Fin.prod_univ_castSucc]
        have : ∀ i : Fin d, (2 ^ d + c).testBit i.1 = c.testBit i.1 := fun i => Nat.testBit_two_pow_add_gt i.2 c
        simp only [Fin.val_castSucc, Fin.val_last, Nat.testBit_two_pow_add_eq, Nat.testBit_lt_two_pow (Finset.mem_range.1 hc), Bool.not_false, if_true, this]
        ring
    have range : ∀ (u : Fin d → K) (g : Nat → K), (∀ i, 0 ≤ u i ∧ u i ≤ 1) → (∀ c, 0 ≤ g c ∧ g c ≤ 1) →
        0 ≤ (∑ c ∈ Finset.range (2 ^ d), (∏ i : Fin d, if c.testBit i.1 then u i else 1 - u i) * g c) ∧
        (∑ c ∈ Finset.range (2 ^ d), (∏ i : Fin d, if c.testBit i.1 then u i else 1 - u i) * g c) ≤ 1 := by
      intro u g hu hg
      have hp : ∀ c : Nat, 0 ≤ ∏ i : Fin d, if c.testBit i.1 then u i else 1 - u i := fun c => Finset.prod_nonneg fun i _ => by
        have := hu i
        split <;> linarith
      refine ⟨Finset.sum_nonneg fun c _ => mul_nonneg (hp c) (hg c).1, ?_⟩
      refine le_trans ?_ (le_of_eq (sum_bits K d u))
      exact Finset.sum_le_sum fun c _ => mul_le_of_le_one_right (hp c) (hg c).2
    rw [split w, split v]
    have ih1 := interpolation_lipschitz K δ d (fun i => w i.castSucc) (fun i => v i.castSucc) f (fun i => hw _) (fun i => hv _) (fun i => hd _) hf
    have ih2 := interpolation_lipschitz K δ d (fun i => w i.castSucc) (fun i => v i.castSucc) (fun c => f (2 ^ d + c)) (fun i => hw _) (fun i => hv _) (fun i => hd _) (fun c => hf _)
    have r1 := range (fun i => w i.castSucc) f (fun i => hw _) hf
    have r2 := range (fun i => w i.castSucc) (fun c => f (2 ^ d + c)) (fun i => hw _) (fun c => hf _)
    generalize (∑ c ∈ Finset.range (2 ^ d), (∏ i : Fin d, if c.testBit i.1 then w i.castSucc else 1 - w i.castSucc) * f c) = A at *
    generalize (∑ c ∈ Finset.range (2 ^ d), (∏ i : Fin d, if c.testBit i.1 then v i.castSucc else 1 - v i.castSucc) * f c) = A' at *
    generalize (∑ c ∈ Finset.range (2 ^ d), (∏ i : Fin d, if c.testBit i.1 then w i.castSucc else 1 - w i.castSucc) * f (2 ^ d + c)) = B at *
    generalize (∑ c ∈ Finset.range (2 ^ d), (∏ i : Fin d, if c.testBit i.1 then v i.castSucc else 1 - v i.castSucc) * f (2 ^ d + c)) = B' at *
    have hl := abs_le.1 (hd (Fin.last d))
    have hvl := hv (Fin.last d)
    generalize w (Fin.last d) = x at *
    generalize v (Fin.last d) = y at *
    have e : A * (1 - x) + B * x - (A' * (1 - y) + B' * y) = (B - A) * (x - y) + ((A - A') * (1 - y) + (B - B') * y) := by ring
    rw [e]
    refine (abs_add_le _ _).trans ?_
    have t1 : |(B - A) * (x - y)| ≤ δ := by
      rw [abs_mul]
      calc _ ≤ 1 * δ := mul_le_mul (abs_le.2 ⟨by linarith, by linarith⟩) (abs_le.2 hl) (abs_nonneg _) zero_le_one
        _ = δ := one_mul _
    have t2 : |(A - A') * (1 - y) + (B - B') * y| ≤ d * δ := by
      refine (abs_add_le _ _).trans ?_
      rw [abs_mul, abs_mul, abs_of_nonneg hvl.1, abs_of_nonneg (show 0 ≤ 1 - y by linarith)]
      calc _ ≤ d * δ * (1 - y) + d * δ * y := add_le_add (mul_le_mul_of_nonneg_right ih1 (by linarith)) (mul_le_mul_of_nonneg_right ih2 hvl.1)
        _ = d * δ := by ring
    push_cast
    linarith

end weights

namespace St
open Abs
variable {d : Nat} {B : Backend d} {D : Type} [Inhabited D] {K : Type} [Field K] [LinearOrder K] [IsStrictOrderedRing K]

omit [IsStrictOrderedRing K] in
/-- value of the rounded sampling functions on reachable states -/
theorem sampleWithR_spec (L : B.Lawful) (R : Arith K) (dyn : Bool) (w : Nat → K) (f : D → K) (bi : Idx d) (st : St B D) (hI : RInv L dyn st) :
    (∀ x, sampleWithR R dyn w f bi st = some x →
      (st.valid dyn bi = true ∧ bi ∈ st.abs.allocated → x = sumR R.T (fun c => w c * f (st.abs.val c (generateIndex bi c))) (2 ^ d)) ∧
      (¬ (st.valid dyn bi = true ∧ bi ∈ st.abs.allocated) → x = 0)) ∧
    (st.abs.Good bi → ∃ x, sampleWithR R dyn w f bi st = some x) := by
  unfold sampleWithR
  by_cases hv : st.valid dyn bi = true
  · rw [if_pos hv]
    by_cases hok : B.ok st.bundles bi = true
    · rw [if_pos hok]
      have hl := look_of_ok B st.bundles bi hok
      cases hg : B.get st.bundles bi with
      | none =>
        have hna : bi ∉ st.abs.allocated := by
          rw [mem_allocated_iff]; unfold bundle; rw [hl, hg]; simp
        refine ⟨?_, fun _ => ⟨0, rfl⟩⟩
        intro x hx; cases hx
        exact ⟨fun h => absurd h.2 hna, fun _ => rfl⟩
      | some b =>
        have hb : st.bundle bi = some b := by unfold bundle; rw [hl, hg]
        have ha : bi ∈ st.abs.allocated := by rw [mem_allocated_iff, hb]; rfl
        refine ⟨?_, fun _ => ⟨_, rfl⟩⟩
        intro x hx; cases hx
        refine ⟨fun _ => ?_, fun h => absurd ⟨hv, ha⟩ h⟩
        unfold evaluateR sumR
        rw [twoPow_eq]
        refine List.foldl_ext _ _ _ fun acc c hc => ?_
        obtain ⟨a, h1, h2⟩ := hI.inv.complete bi b hb c (List.mem_range.1 hc)
        rw [h1]
        refine congrArg (fun z => R.T.rnd (acc + R.T.rnd (w c * f z))) ?_
        unfold Abs.val
        show _ = (st.content c (generateIndex bi c)).getD default
        unfold St.content; rw [h2]; rfl
    · rw [if_neg hok]
      exact ⟨fun x hx => (by cases hx), fun h => absurd h.1 hok⟩
  · rw [if_neg hv]
    refine ⟨?_, fun _ => ⟨0, rfl⟩⟩
    intro x hx; cases hx
    exact ⟨fun h => absurd h.1 hv, fun _ => rfl⟩

end St
end Ndt
