import Verif.Model.RasterFormat
import Verif.Proofs.OccFormat
import Verif.Props.RasterRounded

/-! Lemmas for C119: rasterisation in `float` and `double`. -/

namespace Ndt
open Spec

section
variable {K : Type} [Field K] [LinearOrder K] [IsStrictOrderedRing K] [FloorRing K] {T : Format}

omit [IsStrictOrderedRing K] [FloorRing K] in
theorem Fl.div_fin {x y : K} (h : y ≠ 0) : Fl.div (.fin x) (.fin y) = .fin (x / y) := by
  show (if y = 0 then _ else _) = _
  rw [if_neg h]

/-- a result that is zero or neither too small nor too large -/
theorem round_normal (hT : T = .single ∨ T = .double) {x : K} {k : Int} (h1 : T.emin ≤ k) (h2 : k < T.emax) (hx : x = 0 ∨ (2 : K) ^ T.emin ≤ |x|) (h : |x| ≤ (2 : K) ^ k) :
    T.round x = .fin (toBits T.t x) ∧ |toBits T.t x| ≤ (2 : K) ^ k ∧ InFormat T (toBits T.t x) := by
  have e : T.nearest x = toBits T.t x := by
    rcases hx with rfl | hx
    · rw [T.nearest_zero, toBits_zero]
    · exact T.nearest_normal hx
  have := round_bounded hT h1 h2 h
  rwa [e] at this

/-- an `int` converted to the scalar type -/
theorem int_round (hT : T = .single ∨ T = .double) {x : Int} (h : |x| ≤ 2147483648) :
    T.round (x : K) = .fin (toBits T.t (x : K)) ∧ |toBits T.t (x : K)| ≤ (2 : K) ^ (31 : Int) ∧ InFormat T (toBits T.t (x : K)) ∧ (x = 0 ∨ 1 ≤ |toBits T.t (x : K)|) := by
  obtain ⟨ht, _⟩ := scalar_facts hT
  have hw : T.emin ≤ 31 ∧ 31 < T.emax ∧ T.emin ≤ 0 := by rcases hT with rfl | rfl <;> decide
  have hx : x = 0 ∨ (1 : K) ≤ |(x : K)| := by
    by_cases h0 : x = 0
    · exact Or.inl h0
    · right; exact_mod_cast Int.one_le_abs h0
  have hle : |(x : K)| ≤ (2 : K) ^ (31 : Int) := by
    have : ((|x| : Int) : K) ≤ ((2147483648 : Int) : K) := by exact_mod_cast h
    push_cast at this
    rw [show (31 : Int) = ((31 : Nat) : Int) from rfl, zpow_natCast]
    norm_num; exact this
  obtain ⟨a, b, c⟩ := round_normal hT hw.1 hw.2.1 (hx.imp (fun h => by rw [h, Int.cast_zero]) fun h => (zpow_le_one_of_nonpos₀ one_le_two hw.2.2).trans h) hle
  refine ⟨a, b, c, hx.imp id fun h => ?_⟩
  rcases le_or_gt 0 (x : K) with h0 | h0
  · rw [abs_of_nonneg h0] at h
    have := toBits_mono T.t ht _ _ h
    rw [toBits_one T.t ht] at this
    exact this.trans (le_abs_self _)
  · rw [abs_of_neg h0] at h
    have := toBits_mono T.t ht _ _ h
    rw [toBits_one T.t ht, toBits_neg] at this
    exact this.trans (neg_le_abs _)

theorem sumK (hT : T = .single ∨ T = .double) {a b : K} {k : Int} (h1 : T.emin ≤ k + 1) (h2 : k + 1 < T.emax) (ha : |a| ≤ (2 : K) ^ k) (hb : |b| ≤ (2 : K) ^ k) (fa : InFormat T a) (fb : InFormat T b) :
    T.add (.fin a) (.fin b) = .fin (toBits T.t (a + b)) := by
  obtain ⟨ht, _⟩ := scalar_facts hT
  have h : |a + b| ≤ (2 : K) ^ (k + 1) := by
    rw [zpow_add_one₀ two_ne_zero]
    have := abs_add_le a b
    linarith
  obtain ⟨r1, _⟩ := round_bounded hT h1 h2 h
  obtain ⟨k1, e1⟩ := fa.multiple
  obtain ⟨k2, e2⟩ := fb.multiple
  have e := T.nearest_sum' ht (z := a + b) (k := k1 + k2) (by push_cast; rw [add_mul, ← e1, ← e2])
  rw [e] at r1
  exact r1

/-- two numbers of `t` bits differ by at least the last bit of the larger one -/
theorem toBits_gap (t : Nat) (ht : 1 ≤ t) {a s : K} (ha : toBits t a = a) (hs : toBits t s = s) (h0 : 0 < a) (h : a < s) : a ≤ s * (1 - ((2 : K) ^ t)⁻¹) := by
  have hs0 : 0 < s := h0.trans h
  have mul : ∀ x : K, 0 < x → toBits t x = x → ∃ k : Int, x = (k : K) * (2 : K) ^ (Int.log 2 x + 1 - (t : Int)) := by
    intro x hx e
    refine ⟨nearestEven (x / lastBit t x), ?_⟩
    unfold toBits at e
    rw [if_neg (not_lt.2 hx.le)] at e
    conv_lhs => rw [← e]
    unfold lastBit
    rw [abs_of_pos hx]
  obtain ⟨m, hm⟩ := mul a h0 ha
  obtain ⟨n, hn⟩ := mul s hs0 hs
  have hlog : Int.log 2 a ≤ Int.log 2 s := Int.log_mono_right h0 h.le
  have a1 := Int.lt_zpow_succ_log_self (b := 2) one_lt_two a
  have s0 := Int.zpow_log_le_self (b := 2) one_lt_two hs0
  have s1 := Int.lt_zpow_succ_log_self (b := 2) one_lt_two s
  push_cast at a1 s0 s1
  generalize Int.log 2 a = α at *
  generalize Int.log 2 s = σ at *
  have hP : (0 : K) < (2 : K) ^ t := by positivity
  have split : ∀ e : Int, (2 : K) ^ (e + 1 - (t : Int)) = (2 : K) ^ (e + 1) * ((2 : K) ^ t)⁻¹ := by
    intro e; rw [zpow_sub₀ two_ne_zero, zpow_natCast, div_eq_mul_inv]
  have hq : (0 : K) < ((2 : K) ^ t)⁻¹ := by positivity
  rcases hlog.eq_or_lt with e | e
  · subst e
    have hk : m < n := by
      have : (m : K) * (2 : K) ^ (α + 1 - (t : Int)) < (n : K) * (2 : K) ^ (α + 1 - (t : Int)) := by rw [← hm, ← hn]; exact h
      exact_mod_cast lt_of_mul_lt_mul_right this (by positivity)
    have hk' : (m : K) + 1 ≤ n := by exact_mod_cast hk
    have h3 : a + (2 : K) ^ (α + 1 - (t : Int)) ≤ s := by
      have := mul_le_mul_of_nonneg_right hk' (show (0 : K) ≤ (2 : K) ^ (α + 1 - (t : Int)) by positivity)
      rw [← hn, add_mul, ← hm, one_mul] at this
      exact this
    rw [split] at h3
    have := mul_lt_mul_of_pos_right s1 hq
    linarith
  · have hlt : m < 2 ^ t := by
      have e1 : (m : K) * (2 : K) ^ (α + 1 - (t : Int)) < ((2 ^ t : Int) : K) * (2 : K) ^ (α + 1 - (t : Int)) := by
        rw [← hm, split]; push_cast
        rw [mul_comm ((2 : K) ^ t), mul_assoc, inv_mul_cancel₀ hP.ne', mul_one]; exact a1
      exact_mod_cast lt_of_mul_lt_mul_right e1 (by positivity)
    have hk' : (m : K) ≤ (2 : K) ^ t - 1 := by
      have : m ≤ 2 ^ t - 1 := by omega
      exact_mod_cast this
    have h3 : a ≤ (2 : K) ^ (α + 1) * (1 - ((2 : K) ^ t)⁻¹) := by
      have := mul_le_mul_of_nonneg_right hk' (show (0 : K) ≤ (2 : K) ^ (α + 1 - (t : Int)) by positivity)
      rw [← hm, split] at this
      have e2 : ((2 : K) ^ t - 1) * ((2 : K) ^ (α + 1) * ((2 : K) ^ t)⁻¹) = (2 : K) ^ (α + 1) * (1 - ((2 : K) ^ t)⁻¹) := by
        field_simp
      rwa [e2] at this
    have h4 : (2 : K) ^ (α + 1) ≤ s := (zpow_le_zpow_right₀ one_le_two (by omega)).trans s0
    have h5 : (0 : K) ≤ 1 - ((2 : K) ^ t)⁻¹ := by
      have : ((2 : K) ^ t)⁻¹ ≤ 1 := inv_le_one_of_one_le₀ (one_le_pow₀ one_le_two)
      linarith
    exact h3.trans (mul_le_mul_of_nonneg_right h4 h5)

/-- a quotient of two numbers of the format below 1 is not rounded to 1 -/
theorem quotient_below (hT : T = .single ∨ T = .double) {a s : K} (ha : InFormat T a) (hs : InFormat T s) (h0 : 0 < a) (h : a < s) :
    ∃ y, T.round (a / s) = .fin y ∧ 0 ≤ y ∧ y < 1 := by
  obtain ⟨ht, _⟩ := scalar_facts hT
  have hs0 : 0 < s := h0.trans h
  have h1 : a / s ≤ 1 - ((2 : K) ^ T.t)⁻¹ := by
    rw [div_le_iff₀ hs0, mul_comm]
    exact toBits_gap T.t ht (ha.toBits ht) (hs.toBits ht) h0 h
  have hq : (0 : K) < ((2 : K) ^ T.t)⁻¹ := by positivity
  have hf : InFormat T ((1 : K) - ((2 : K) ^ T.t)⁻¹) := by
    refine ⟨⟨2 ^ T.t - 1, -(T.t : Int), ?_, ?_, ?_⟩, ?_⟩
    · rw [abs_of_nonneg (by have : (1 : Int) ≤ 2 ^ T.t := one_le_pow₀ (by norm_num); omega)]; omega
    · rcases hT with rfl | rfl <;> decide
    · push_cast; rw [zpow_neg, zpow_natCast, sub_mul, one_mul, mul_inv_cancel₀ (by positivity)]
    · have : ((2 : K) ^ T.t)⁻¹ ≤ 1 := inv_le_one_of_one_le₀ (one_le_pow₀ one_le_two)
      rw [abs_of_nonneg (by linarith)]
      have : (1 : K) ≤ (2 : K) ^ T.emax := one_le_zpow₀ one_le_two (by rcases hT with rfl | rfl <;> decide)
      linarith
  have h1' : (0 : K) ≤ 1 - ((2 : K) ^ T.t)⁻¹ := le_trans (div_nonneg h0.le hs0.le) h1
  obtain ⟨r, hr, hlt⟩ : ∃ y, T.round (a / s) = .fin y ∧ y = T.nearest (a / s) := by
    have := round_bounded hT (x := a / s) (k := 0) (by rcases hT with rfl | rfl <;> decide) (by rcases hT with rfl | rfl <;> decide)
      (by rw [abs_of_nonneg (div_nonneg h0.le hs0.le), zpow_zero]; linarith)
    exact ⟨_, this.1, rfl⟩
  refine ⟨r, hr, ?_, ?_⟩
  · rw [hlt]; exact T.nearest_nonneg ht (div_nonneg h0.le hs0.le)
  · rw [hlt]
    have := T.nearest_mono ht (div_nonneg h0.le hs0.le) h1
    rw [T.nearest_fix ht h1' hf] at this
    linarith

/-! ### the list of writes -/

theorem Grid.perform_some {V : Type} (l : List (Int × Int × V)) (g : Grid V) : Grid.perform (l.map fun e => some [e]) g = Grid.writeAll l g := by
  induction l generalizing g with
  | nil => rfl
  | cons e l ih =>
    obtain ⟨u, v, x⟩ := e
    show (Grid.writeAll [(u, v, x)] g).bind _ = (g.write u v x).bind _
    have : Grid.writeAll [(u, v, x)] g = g.write u v x := by
      show (g.write u v x).bind some = _
      exact Option.bind_fun_some _
    rw [this]
    congr 1
    funext g'
    exact ih g'

theorem Grid.perform_none {V : Type} (l : List (Option (List (Int × Int × V)))) (h : none ∈ l) (g : Grid V) : Grid.perform l g = none := by
  induction l generalizing g with
  | nil => cases h
  | cons e l ih =>
    cases e with
    | none => rfl
    | some e =>
      have h' : none ∈ l := by simpa using h
      show (g.writeAll e).bind _ = none
      rw [Option.bind_eq_none_iff]
      intro g' _
      exact ih h' g'

/-- the index of a cell without overflow -/
theorem cellIndexF_eq {lo b : Int} {n k : Nat} (h0 : lo ≤ b) (hk : k < n) (h : (b - lo + 1) * (n : Int) ≤ 2147483648) : cellIndexF lo b n k = some ((b - lo) * (n : Int) + (k : Int)) := by
  have e : (b - lo + 1) * (n : Int) = (b - lo) * (n : Int) + n := by ring
  rw [e] at h
  have hn : (0 : Int) ≤ (b - lo) * (n : Int) := mul_nonneg (by omega) (by omega)
  have hbl : b - lo ≤ (b - lo) * (n : Int) := by nlinarith
  unfold cellIndexF intSub
  rw [if_pos (by omega), Option.bind_some]
  unfold toInt
  rw [if_pos (by omega), Option.bind_some, if_pos (by omega)]

/-- the last index of a bundle overflows -/
theorem cellIndexF_none {lo b : Int} {n : Nat} (hn : 0 < n) (h : 2147483648 < (b - lo + 1) * (n : Int)) : cellIndexF lo b n (n - 1) = none := by
  have e : (b - lo + 1) * (n : Int) = (b - lo) * (n : Int) + n := by ring
  rw [e] at h
  unfold cellIndexF
  rw [Option.bind_eq_none_iff]
  intro x hx
  rw [Option.bind_eq_none_iff]
  intro y hy
  unfold intSub at hx
  split at hx
  case isFalse => cases hx
  obtain rfl := Option.some.inj hx
  unfold toInt at hy ⊢
  split at hy
  case isFalse => cases hy
  obtain rfl := Option.some.inj hy
  rw [if_neg]
  omega

/-! ### agreement with the arithmetic without bounds on exponents -/

/-- the members of the map -/
theorem edge_fin (hT : T = .single ∨ T = .double) (ht : 1 ≤ T.t) {r : K} (hr : InFormat T r) (h1 : (2 : K) ^ (-30 : Int) ≤ r) (h2 : r ≤ (2 : K) ^ (30 : Int)) :
    bundleResolutionF T r = .fin (r / 2) ∧ bundleResolutionR (ieeeArith K T.t ht) r = r / 2 ∧ (2 : K) ^ (-31 : Int) ≤ r / 2 ∧ r / 2 ≤ (2 : K) ^ (29 : Int) ∧ InFormat T (r / 2) := by
  obtain ⟨_, f53, _⟩ := scalar_facts hT
  have hw : T.emin + 1 ≤ -30 ∧ 30 ≤ -T.emin ∧ T.emin ≤ 29 ∧ 29 < T.emax ∧ T.emin ≤ -31 := by rcases hT with rfl | rfl <;> decide
  obtain ⟨⟨a, _⟩, _⟩ := members_between hT ht r hw.1 hw.2.1 h1 h2
  have hh := C77_half_exact T.t ht f53 r (hr.toBits ht)
  rw [hh] at a
  have e1 : (2 : K) ^ (-30 : Int) = 2 * (2 : K) ^ (-31 : Int) := by rw [← zpow_one_add₀ two_ne_zero]; rfl
  have e2 : (2 : K) ^ (30 : Int) = 2 * (2 : K) ^ (29 : Int) := by rw [← zpow_one_add₀ two_ne_zero]; rfl
  have l1 : (2 : K) ^ (-31 : Int) ≤ r / 2 := by rw [e1] at h1; rw [le_div_iff₀ two_pos, mul_comm]; exact h1
  have l2 : r / 2 ≤ (2 : K) ^ (29 : Int) := by rw [e2] at h2; rw [div_le_iff₀ two_pos, mul_comm]; exact h2
  have hp : 0 < r / 2 := lt_of_lt_of_le (zpow_pos two_pos _) l1
  have hb : toBits T.t (r / 2) = r / 2 := by
    have : toBits T.t (r * (2 : K) ^ (-1 : Int)) = r * (2 : K) ^ (-1 : Int) := by rw [toBits_scale, hr.toBits ht]
    rwa [zpow_neg, zpow_one, ← div_eq_mul_inv] at this
  obtain ⟨_, _, f⟩ := round_normal hT hw.2.2.1 hw.2.2.2.1 (x := r / 2) (Or.inr (by rw [abs_of_pos hp]; exact (zpow_le_zpow_right₀ one_le_two hw.2.2.2.2).trans l1)) (by rw [abs_of_pos hp]; exact l2)
  rw [hb] at f
  exact ⟨a, hh, l1, l2, f⟩

theorem mulK (hT : T = .single ∨ T = .double) {a b : K} {j k : Int} (h1 : T.emin ≤ j + k) (h2 : j + k < T.emax) (ha : |a| ≤ (2 : K) ^ j) (hb : |b| ≤ (2 : K) ^ k)
    (h0 : a = 0 ∨ 1 ≤ |a|) (hb' : (2 : K) ^ T.emin ≤ |b|) : T.mul (.fin a) (.fin b) = .fin (toBits T.t (a * b)) ∧ |toBits T.t (a * b)| ≤ (2 : K) ^ (j + k) ∧ InFormat T (toBits T.t (a * b)) := by
  refine round_normal hT h1 h2 ?_ ?_
  · rcases h0 with rfl | h0
    · left; rw [zero_mul]
    · right; rw [abs_mul]
      have : (0 : K) < (2 : K) ^ T.emin := zpow_pos two_pos _
      nlinarith
  · rw [abs_mul, zpow_add₀ two_ne_zero]
    exact mul_le_mul ha hb (abs_nonneg _) (zpow_pos two_pos _).le

theorem samplePosF_eq (hT : T = .single ∨ T = .double) (ht : 1 ≤ T.t) {r s : K} (hr : InFormat T r) (h1 : (2 : K) ^ (-30 : Int) ≤ r) (h2 : r ≤ (2 : K) ^ (30 : Int))
    (s1 : (2 : K) ^ (-62 : Int) ≤ s) (s2 : s ≤ (2 : K) ^ (30 : Int)) {b : Int} (hb : |b| ≤ 2147483648) {k : Nat} (hk : k < 2147483648) :
    samplePosF T r (.fin s) b k = .fin (samplePosR (ieeeArith K T.t ht) r s b k) := by
  obtain ⟨a, hh, l1, l2, _⟩ := edge_fin hT ht hr h1 h2
  have hw : T.emin ≤ 31 + 29 ∧ (31 : Int) + 30 < T.emax ∧ T.emin ≤ -62 ∧ (31 : Int) + 29 < T.emax ∧ T.emin ≤ 31 + 30 ∧ T.emin ≤ -31 ∧ T.emin ≤ 61 + 1 ∧ (61 : Int) + 1 < T.emax := by rcases hT with rfl | rfl <;> decide
  obtain ⟨b1, b2, _, b4⟩ := int_round (K := K) hT hb
  obtain ⟨k1, k2, _, k4⟩ := int_round (K := K) hT (x := (k : Int)) (by rw [abs_of_nonneg (by omega)]; omega)
  have hs0 : 0 < s := lt_of_lt_of_le (zpow_pos two_pos _) s1
  have hr0 : 0 < r / 2 := lt_of_lt_of_le (zpow_pos two_pos _) l1
  obtain ⟨m1, m2, m3⟩ := mulK hT hw.1 hw.2.2.2.1 b2 (b := r / 2) (by rw [abs_of_pos hr0]; exact l2) (b4.imp (fun h => by rw [h, Int.cast_zero, toBits_zero]) id)
    (by rw [abs_of_pos hr0]; exact (zpow_le_zpow_right₀ one_le_two hw.2.2.2.2.2.1).trans l1)
  obtain ⟨n1, n2, n3⟩ := mulK hT hw.2.2.2.2.1 hw.2.1 k2 (b := s) (by rw [abs_of_pos hs0]; exact s2) (k4.imp (fun h => by rw [h, Int.cast_zero, toBits_zero]) id)
    (by rw [abs_of_pos hs0]; exact (zpow_le_zpow_right₀ one_le_two hw.2.2.1).trans s1)
  rw [Int.cast_natCast] at k1 n1 n2 n3
  unfold samplePosF
  rw [a, b1, k1, m1, n1, sumK hT hw.2.2.2.2.2.2.1 hw.2.2.2.2.2.2.2 (m2.trans (zpow_le_zpow_right₀ one_le_two (by norm_num))) n2 m3 n3]
  unfold samplePosR
  rw [hh]; rfl

theorem chunkWeightF_eq (hT : T = .single ∨ T = .double) (ht : 1 ≤ T.t) (b : Int) {k n : Nat} (hk : k < n) (hn : n < 2147483648) :
    chunkWeightF K T b k n = .fin (chunkWeightR (ieeeArith K T.t ht) b k n) := by
  have hw : T.emin ≤ 0 ∧ 31 < T.emax ∧ T.emin ≤ -31 ∧ T.emin ≤ 31 ∧ T.emin ≤ 31 + 1 ∧ (31 : Int) + 1 < T.emax ∧ 0 < T.emax := by rcases hT with rfl | rfl <;> decide
  obtain ⟨k1, k2, _, k4⟩ := int_round (K := K) hT (x := (k : Int)) (by rw [abs_of_nonneg (by omega)]; omega)
  obtain ⟨n1, n2, _, n4⟩ := int_round (K := K) hT (x := (n : Int)) (by rw [abs_of_nonneg (by omega)]; omega)
  rw [Int.cast_natCast] at k1 k2 k4 n1 n2 n4
  have hn1 : 1 ≤ |toBits T.t (n : K)| := n4.resolve_left (by omega)
  have hn0 : toBits T.t (n : K) ≠ 0 := by intro h; rw [h, abs_zero] at hn1; linarith
  obtain ⟨q1, q2, q3⟩ := round_normal hT (x := toBits T.t (k : K) / toBits T.t (n : K)) (k := 31) hw.2.2.2.1 hw.2.1
    (by
      rcases k4 with h | h
      · left
        have : k = 0 := by omega
        rw [this, Nat.cast_zero, toBits_zero, zero_div]
      · right
        rw [abs_div, le_div_iff₀ (by linarith)]
        refine le_trans ?_ h
        calc (2 : K) ^ T.emin * |toBits T.t (n : K)| ≤ (2 : K) ^ (-31 : Int) * (2 : K) ^ (31 : Int) :=
              mul_le_mul (zpow_le_zpow_right₀ one_le_two hw.2.2.1) n2 (abs_nonneg _) (zpow_pos two_pos _).le
          _ = 1 := by rw [← zpow_add₀ two_ne_zero]; simp)
    (by rw [abs_div]; exact (div_le_self (abs_nonneg _) hn1).trans k2)
  have hdiv : T.div (T.round (k : K)) (T.round (n : K)) = .fin (toBits T.t (toBits T.t (k : K) / toBits T.t (n : K))) := by
    rw [k1, n1]
    unfold Format.div
    rw [Fl.div_fin hn0]
    exact q1
  unfold chunkWeightF chunkWeightR
  split
  · exact hdiv
  · rw [hdiv]
    have f1 : InFormat T (1 : K) := by
      have := pow_inFormat (K := K) hT hw.1 hw.2.2.2.2.2.2
      rwa [zpow_zero] at this
    have fn : InFormat T (-toBits T.t (toBits T.t (k : K) / toBits T.t (n : K))) := by
      obtain ⟨⟨m, e, h1, h2, h3⟩, h4⟩ := q3
      exact ⟨⟨-m, e, by rwa [abs_neg], h2, by rw [h3]; push_cast; ring⟩, by rwa [abs_neg]⟩
    have := sumK hT hw.2.2.2.2.1 hw.2.2.2.2.2.1 (a := (1 : K)) (b := -toBits T.t (toBits T.t (k : K) / toBits T.t (n : K)))
      (by rw [abs_one]; exact one_le_zpow₀ one_le_two (by norm_num)) (by rwa [abs_neg]) f1 fn
    rw [← sub_eq_add_neg] at this
    exact this

/-- the number of cells per row of a bundle, where the quotient is normal -/
theorem chunkStepF_eq (hT : T = .single ∨ T = .double) (ht : 1 ≤ T.t) {r s : K} (hr : InFormat T r) (h1 : (2 : K) ^ (-30 : Int) ≤ r) (h2 : r ≤ (2 : K) ^ (30 : Int))
    (s1 : (2 : K) ^ (-63 : Int) ≤ s) (s2 : s ≤ (2 : K) ^ (30 : Int)) : chunkStepF T r (.fin s) = Option.map (fun n : Nat => (n : Int)) (chunkStepR (ieeeArith K T.t ht) r s) := by
  obtain ⟨a, hh, l1, l2, _⟩ := edge_fin hT ht hr h1 h2
  have hw : T.emin ≤ 92 ∧ 92 < T.emax ∧ T.emin ≤ -61 := by rcases hT with rfl | rfl <;> decide
  have hs0 : 0 < s := lt_of_lt_of_le (zpow_pos two_pos _) s1
  have hr0 : 0 < r / 2 := lt_of_lt_of_le (zpow_pos two_pos _) l1
  have hq : 0 < r / 2 / s := div_pos hr0 hs0
  have u : r / 2 / s ≤ (2 : K) ^ (92 : Int) := by
    rw [div_le_iff₀ hs0]
    calc r / 2 ≤ (2 : K) ^ (92 : Int) * (2 : K) ^ (-63 : Int) := by rw [← zpow_add₀ two_ne_zero]; exact l2
      _ ≤ _ := mul_le_mul_of_nonneg_left s1 (zpow_pos two_pos _).le
  have l : (2 : K) ^ (-61 : Int) ≤ r / 2 / s := by
    rw [le_div_iff₀ hs0]
    calc (2 : K) ^ (-61 : Int) * s ≤ (2 : K) ^ (-61 : Int) * (2 : K) ^ (30 : Int) := mul_le_mul_of_nonneg_left s2 (zpow_pos two_pos _).le
      _ = (2 : K) ^ (-31 : Int) := by rw [← zpow_add₀ two_ne_zero]; rfl
      _ ≤ _ := l1
  obtain ⟨q1, _⟩ := round_normal hT hw.1 hw.2.1 (Or.inr (by rw [abs_of_pos hq]; exact (zpow_le_zpow_right₀ one_le_two hw.2.2).trans l)) (by rw [abs_of_pos hq]; exact u)
  have h0 := toBits_nonneg T.t hq.le
  unfold chunkStepF Format.div chunkStepR
  rw [a, hh]
  rw [Fl.div_fin hs0.ne']
  show flTrunc (T.round _) = _
  rw [q1]
  show toInt _ = Option.map _ (Option.map _ (toInt ⌊toBits T.t (r / 2 / s)⌋))
  rw [if_neg (not_lt.2 h0)]
  have hf : 0 ≤ ⌊toBits T.t (r / 2 / s)⌋ := Int.floor_nonneg.2 h0
  unfold toInt
  split
  · rw [Option.map_some, Option.map_some, Int.toNat_of_nonneg hf]
  · rfl

/-- the extent of the raster -/
theorem extentF_eq (hT : T = .single ∨ T = .double) (ht : 1 ≤ T.t) {r s : K} (hr : InFormat T r) (h1 : (2 : K) ^ (-30 : Int) ≤ r) (h2 : r ≤ (2 : K) ^ (30 : Int))
    (s1 : (2 : K) ^ (-63 : Int) ≤ s) (s2 : s ≤ (2 : K) ^ (30 : Int)) (hq : r / 2 / s ≤ (2 : K) ^ (32 : Int)) {x : Int} (hx : 0 ≤ x) (hx' : x ≤ 2147483648) :
    flCeilSize (T.div (T.mul (T.round (x : K)) (bundleResolutionF T r)) (.fin s)) = some (extentR (ieeeArith K T.t ht) r s x) := by
  obtain ⟨a, hh, l1, l2, _⟩ := edge_fin hT ht hr h1 h2
  have hw : T.emin ≤ 31 + 29 ∧ (31 : Int) + 29 < T.emax ∧ T.emin ≤ -31 ∧ T.emin ≤ 63 ∧ 63 < T.emax ∧ T.emin ≤ -61 := by rcases hT with rfl | rfl <;> decide
  have hs0 : 0 < s := lt_of_lt_of_le (zpow_pos two_pos _) s1
  have hr0 : 0 < r / 2 := lt_of_lt_of_le (zpow_pos two_pos _) l1
  obtain ⟨x1, x2, _, x4⟩ := int_round (K := K) hT (x := x) (by rw [abs_of_nonneg hx]; omega)
  obtain ⟨m1, m2, m3⟩ := mulK hT hw.1 hw.2.1 x2 (b := r / 2) (by rw [abs_of_pos hr0]; exact l2) (x4.imp (fun h => by rw [h, Int.cast_zero, toBits_zero]) id)
    (by rw [abs_of_pos hr0]; exact (zpow_le_zpow_right₀ one_le_two hw.2.2.1).trans l1)
  have x0 : 0 ≤ toBits T.t (x : K) := toBits_nonneg T.t (by exact_mod_cast hx)
  rw [abs_of_nonneg x0] at x2 x4
  have p0 : 0 ≤ toBits T.t (x : K) * (r / 2) := mul_nonneg x0 hr0.le
  -- the width of the map
  have w1 : toBits T.t (toBits T.t (x : K) * (r / 2)) ≤ (r / 2) * (2 : K) ^ (31 : Int) := by
    have e : toBits T.t (r / 2 * (2 : K) ^ (31 : Int)) = r / 2 * (2 : K) ^ (31 : Int) := by
      rw [toBits_scale]
      have : toBits T.t (r * (2 : K) ^ (-1 : Int)) = r * (2 : K) ^ (-1 : Int) := by rw [toBits_scale, hr.toBits ht]
      rw [zpow_neg, zpow_one, ← div_eq_mul_inv] at this
      rw [this]
    have := toBits_mono T.t ht _ _ (show toBits T.t (x : K) * (r / 2) ≤ (r / 2) * (2 : K) ^ (31 : Int) by rw [mul_comm]; exact mul_le_mul_of_nonneg_left x2 hr0.le)
    rwa [e] at this
  have w0 : 0 ≤ toBits T.t (toBits T.t (x : K) * (r / 2)) := toBits_nonneg T.t p0
  have w2 : x = 0 ∨ r / 2 ≤ toBits T.t (toBits T.t (x : K) * (r / 2)) := by
    refine x4.imp id fun h => ?_
    have e : toBits T.t (r / 2) = r / 2 := by
      have : toBits T.t (r * (2 : K) ^ (-1 : Int)) = r * (2 : K) ^ (-1 : Int) := by rw [toBits_scale, hr.toBits ht]
      rwa [zpow_neg, zpow_one, ← div_eq_mul_inv] at this
    have := toBits_mono T.t ht (r / 2) (toBits T.t (x : K) * (r / 2)) (by nlinarith)
    rwa [e] at this
  have v1 : toBits T.t (toBits T.t (x : K) * (r / 2)) / s ≤ (2 : K) ^ (63 : Int) := by
    calc _ ≤ (r / 2) * (2 : K) ^ (31 : Int) / s := div_le_div_of_nonneg_right w1 hs0.le
      _ = (r / 2 / s) * (2 : K) ^ (31 : Int) := by ring
      _ ≤ (2 : K) ^ (32 : Int) * (2 : K) ^ (31 : Int) := mul_le_mul_of_nonneg_right hq (zpow_pos two_pos _).le
      _ = (2 : K) ^ (63 : Int) := by rw [← zpow_add₀ two_ne_zero]; rfl
  have v0 : 0 ≤ toBits T.t (toBits T.t (x : K) * (r / 2)) / s := div_nonneg w0 hs0.le
  obtain ⟨q1, q2, _⟩ := round_normal hT hw.2.2.2.1 hw.2.2.2.2.1 (x := toBits T.t (toBits T.t (x : K) * (r / 2)) / s)
    (by
      rcases w2 with h | h
      · left; rw [h, Int.cast_zero, toBits_zero, zero_mul, toBits_zero, zero_div]
      · right; rw [abs_of_nonneg v0, le_div_iff₀ hs0]
        calc (2 : K) ^ T.emin * s ≤ (2 : K) ^ (-61 : Int) * (2 : K) ^ (30 : Int) := mul_le_mul (zpow_le_zpow_right₀ one_le_two hw.2.2.2.2.2) s2 hs0.le (zpow_pos two_pos _).le
          _ = (2 : K) ^ (-31 : Int) := by rw [← zpow_add₀ two_ne_zero]; rfl
          _ ≤ _ := l1.trans h)
    (by rw [abs_of_nonneg v0]; exact v1)
  rw [a, x1, m1]
  unfold Format.div
  rw [Fl.div_fin hs0.ne']
  show flCeilSize (T.round _) = _
  rw [q1]
  have z0 := toBits_nonneg T.t v0
  rw [abs_of_nonneg z0] at q2
  show (if _ then some _ else none) = _
  have c0 : 0 ≤ ⌈toBits T.t (toBits T.t (toBits T.t (x : K) * (r / 2)) / s)⌉ := Int.ceil_nonneg z0
  have c1 : ⌈toBits T.t (toBits T.t (toBits T.t (x : K) * (r / 2)) / s)⌉ ≤ 9223372036854775808 := by
    rw [Int.ceil_le]
    refine q2.trans (le_of_eq ?_)
    rw [show (63 : Int) = ((63 : Nat) : Int) from rfl, zpow_natCast]; norm_num
  rw [if_pos ⟨c0, by omega⟩]
  unfold extentR
  rw [hh]; rfl

end
end Ndt
