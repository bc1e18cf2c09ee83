import Verif.Model.OccFormat
import Verif.Proofs.SamplingFormat
import Verif.Props.OccRounded
import Verif.Spec.OccFormat

/-! Lemmas for C118: the order of floating-point values and rounded operations. -/

namespace Ndt
open Spec

section
variable {K : Type} [Field K] [LinearOrder K] [IsStrictOrderedRing K] [FloorRing K]

namespace Fl

omit [Field K] [IsStrictOrderedRing K] [FloorRing K] in
theorem le_refl' {a : Fl K} (h : a ≠ .nan) : Fl.le a a = true := by
  cases a with
  | nan => exact absurd rfl h
  | inf s => cases s <;> rfl
  | fin x => simp [Fl.le]

omit [IsStrictOrderedRing K] [FloorRing K] in
theorem add_mono {a a' b b' : Fl K} [IsStrictOrderedRing K] (h1 : Fl.le a a' = true) (h2 : Fl.le b b' = true) (hn : Fl.add a b ≠ .nan) (hn' : Fl.add a' b' ≠ .nan) : Fl.le (Fl.add a b) (Fl.add a' b') = true := by
  rcases a with _ | s | x <;> rcases a' with _ | s' | x' <;> rcases b with _ | r | y <;> rcases b' with _ | r' | y' <;>
    first
    | exact absurd rfl hn
    | exact absurd rfl hn'
    | (simp only [Fl.le, decide_eq_true_eq] at h1 h2; simp only [Fl.add, Fl.le, decide_eq_true_eq]; first | exact add_le_add h1 h2 | contradiction | assumption)
    | skip
  all_goals first
    | (cases s <;> cases s' <;> cases r <;> cases r' <;> simp_all [Fl.le, Fl.add])
    | (cases s <;> cases s' <;> cases r <;> simp_all [Fl.le, Fl.add])
    | (cases s <;> cases r <;> cases r' <;> simp_all [Fl.le, Fl.add])
    | (cases s' <;> cases r <;> cases r' <;> simp_all [Fl.le, Fl.add])
    | (cases s <;> cases s' <;> cases r' <;> simp_all [Fl.le, Fl.add])
    | (cases s <;> cases s' <;> simp_all [Fl.le, Fl.add])
    | (cases r <;> cases r' <;> simp_all [Fl.le, Fl.add])
    | (cases s <;> cases r <;> simp_all [Fl.le, Fl.add])
    | (cases s <;> cases r' <;> simp_all [Fl.le, Fl.add])
    | (cases s' <;> cases r <;> simp_all [Fl.le, Fl.add])
    | (cases s' <;> cases r' <;> simp_all [Fl.le, Fl.add])
    | (cases s <;> simp_all [Fl.le, Fl.add])
    | (cases s' <;> simp_all [Fl.le, Fl.add])
    | (cases r <;> simp_all [Fl.le, Fl.add])
    | (cases r' <;> simp_all [Fl.le, Fl.add])

omit [FloorRing K] in
theorem neg_anti {a b : Fl K} (h : Fl.le a b = true) : Fl.le (Fl.neg b) (Fl.neg a) = true := by
  rcases a with _ | s | x <;> rcases b with _ | r | y
  all_goals first
    | (cases s <;> cases r <;> simp_all [Fl.le, Fl.neg])
    | (cases s <;> simp_all [Fl.le, Fl.neg])
    | (cases r <;> simp_all [Fl.le, Fl.neg])
    | simp_all [Fl.le, Fl.neg]

omit [FloorRing K] in
theorem mul_mono {x y : K} {c : Fl K} (h0 : 0 ≤ x) (h : x ≤ y) (hc : Fl.le (.fin 0) c = true) (hn : Fl.mul (.fin x) c ≠ .nan) (hn' : Fl.mul (.fin y) c ≠ .nan) : Fl.le (Fl.mul (.fin x) c) (Fl.mul (.fin y) c) = true := by
  rcases c with _ | s | z
  · exact absurd rfl hn
  · cases s
    · simp only [Fl.mul] at hn hn' ⊢
      split at hn
      · exact absurd rfl hn
      · rename_i hx
        rw [if_neg hx, if_neg (by rintro rfl; exact hx (le_antisymm h h0)), decide_eq_false (not_lt.2 h0), decide_eq_false (not_lt.2 (h0.trans h))]
        rfl
    · simp [Fl.le] at hc
  · simp only [Fl.le, decide_eq_true_eq] at hc
    simp only [Fl.mul, Fl.le, decide_eq_true_eq]
    exact mul_le_mul_of_nonneg_right h hc

omit [FloorRing K] in
theorem mul_neg' (x : K) (c : Fl K) : Fl.mul (.fin x) (Fl.neg c) = Fl.neg (Fl.mul (.fin x) c) := by
  rcases c with _ | s | z
  · rfl
  · simp only [Fl.mul, Fl.neg]
    split
    · rfl
    · cases s <;> cases decide (x < 0) <;> rfl
  · simp [Fl.mul, Fl.neg]

omit [FloorRing K] in
theorem neg_neg' (c : Fl K) : Fl.neg (Fl.neg c) = c := by
  rcases c with _ | s | z
  · rfl
  · simp [Fl.neg]
  · simp [Fl.neg]

omit [FloorRing K] in
theorem mul_anti {x y : K} {c : Fl K} (h0 : 0 ≤ x) (h : x ≤ y) (hc : Fl.le c (.fin 0) = true) (hn : Fl.mul (.fin x) c ≠ .nan) (hn' : Fl.mul (.fin y) c ≠ .nan) : Fl.le (Fl.mul (.fin y) c) (Fl.mul (.fin x) c) = true := by
  have hc' : Fl.le (.fin 0) (Fl.neg c) = true := by
    have := neg_anti hc
    simpa [Fl.neg] using this
  have nn : ∀ z : K, Fl.mul (.fin z) c ≠ .nan → Fl.mul (.fin z) (Fl.neg c) ≠ .nan := by
    intro z hz he
    rw [mul_neg'] at he
    apply hz
    generalize Fl.mul (.fin z) c = v at he ⊢
    cases v <;> simp_all [Fl.neg]
  have := neg_anti (mul_mono h0 h hc' (nn x hn) (nn y hn'))
  rwa [mul_neg', mul_neg', neg_neg', neg_neg'] at this

end Fl

namespace Format
variable (F : Format)

theorem nearest_mono' (ht : 1 ≤ F.t) {x y : K} (h : x ≤ y) : F.nearest x ≤ F.nearest y := by
  rcases le_or_gt 0 x with h0 | h0
  · exact F.nearest_mono ht h0 h
  · rcases le_or_gt 0 y with h1 | h1
    · have := F.nearest_nonneg ht (x := -x) (by linarith)
      rw [F.nearest_neg] at this
      have := F.nearest_nonneg ht h1
      linarith
    · have := F.nearest_mono ht (x := -y) (y := -x) (by linarith) (by linarith)
      rw [F.nearest_neg, F.nearest_neg] at this
      linarith

theorem round_mono (ht : 1 ≤ F.t) {x y : K} (h : x ≤ y) : Fl.le (F.round x) (F.round y) = true := by
  have hm := F.nearest_mono' ht h
  have hp : (0 : K) < (2 : K) ^ F.emax := zpow_pos two_pos _
  have sgn : ∀ z : K, z < 0 → F.nearest z ≤ 0 := fun z hz => by
    have := F.nearest_nonneg ht (x := -z) (by linarith)
    rw [F.nearest_neg] at this; linarith
  unfold round
  split <;> split
  · simpa [Fl.le] using hm
  · rename_i h1 h2
    have : ¬ y < 0 := fun hy => by
      have e := sgn y hy
      rw [abs_lt] at h1
      rw [abs_of_nonpos e, not_lt] at h2
      linarith
    simp [Fl.le, this]
  · rename_i h1 h2
    have : x < 0 := by
      by_contra hx
      have e := F.nearest_nonneg ht (not_lt.1 hx)
      rw [abs_of_nonneg e, not_lt] at h1
      rw [abs_lt] at h2
      linarith
    simp [Fl.le, this]
  · by_cases hx : x < 0
    · simp [Fl.le, hx]
    · simp [Fl.le, hx, not_lt.1 hx |>.trans h |> not_lt.2]

theorem round_ne_nan (x : K) : F.round x ≠ .nan := by unfold round; split <;> simp

theorem conv_eq_nan {a : Fl K} : F.conv a = .nan ↔ a = .nan := by
  cases a with
  | nan => exact Iff.rfl
  | inf s => simp [conv]
  | fin x => simp [conv, F.round_ne_nan]

theorem conv_mono (ht : 1 ≤ F.t) {a b : Fl K} (h : Fl.le a b = true) : Fl.le (F.conv a) (F.conv b) = true := by
  have infs : ∀ (s : Bool) (x : K), (s = false → Fl.le (F.round x) (.inf s) = true) ∧ (s = true → Fl.le (.inf s) (F.round x) = true) := by
    intro s x
    have := F.round_ne_nan x
    generalize F.round x = v at this
    constructor <;> rintro rfl <;> rcases v with _ | r | z <;> first | exact absurd rfl this | (cases r <;> rfl) | rfl
  rcases a with _ | s | x <;> rcases b with _ | r | y
  · simp [Fl.le] at h
  · simp [Fl.le] at h
  · simp [Fl.le] at h
  · simp [Fl.le] at h
  · exact h
  · cases s
    · simp [Fl.le] at h
    · exact (infs true y).2 rfl
  · simp [Fl.le] at h
  · cases r
    · exact (infs false x).1 rfl
    · simp [Fl.le] at h
  · exact F.round_mono ht (by simpa [Fl.le] using h)

end Format

namespace Format
variable (F : Format)

theorem nearest_sum' (ht : 1 ≤ F.t) {k : Int} {z : K} (hk : z = (k : K) * (2 : K) ^ (F.emin + 1 - (F.t : Int))) : F.nearest z = toBits F.t z := by
  rcases le_or_gt 0 z with h | h
  · exact F.nearest_sum ht h hk
  · have := F.nearest_sum ht (z := -z) (k := -k) (by linarith) (by rw [hk]; push_cast; ring)
    rw [F.nearest_neg, toBits_neg] at this
    linarith

end Format

variable {T : Format}

theorem round_bounded (hT : T = .single ∨ T = .double) {x : K} {k : Int} (h1 : T.emin ≤ k) (h2 : k < T.emax) (h : |x| ≤ (2 : K) ^ k) :
    T.round x = .fin (T.nearest x) ∧ |T.nearest x| ≤ (2 : K) ^ k ∧ InFormat T (T.nearest x) := by
  obtain ⟨a1, _⟩ := scalar_facts hT
  have hp := T.nearest_fix a1 (zpow_pos (two_pos (α := K)) _).le (pow_inFormat (K := K) hT h1 h2)
  have hb : |T.nearest x| ≤ (2 : K) ^ k := by
    rw [abs_le] at h ⊢
    have u := T.nearest_mono' a1 h.2
    have l := T.nearest_mono' a1 h.1
    rw [T.nearest_neg, hp] at l
    rw [hp] at u
    exact ⟨l, u⟩
  have hlt := hb.trans_lt (zpow_lt_zpow_right₀ one_lt_two h2)
  exact ⟨by unfold Format.round; rw [if_pos hlt], hb, T.nearest_form a1 x, hlt⟩

theorem round_nonneg (hT : T = .single ∨ T = .double) {x : K} (h : 0 ≤ x) : T.round x = .inf false ∨ ∃ y, T.round x = .fin y ∧ y = T.nearest x ∧ 0 ≤ y := by
  obtain ⟨a1, _⟩ := scalar_facts hT
  unfold Format.round
  split
  · exact Or.inr ⟨_, rfl, rfl, T.nearest_nonneg a1 h⟩
  · left; rw [decide_eq_false (not_lt.2 h)]

theorem toBits_tiny (t : Nat) (ht : 1 ≤ t) {y : K} (h0 : 0 ≤ y) (h : y < ((2 : K) ^ t)⁻¹) : toBits t (1 + y) = 1 := by
  have hb := (C77_ieee (K := K) t ht (1 + y))
  have e1 : (1 : K) / lastBit t (1 + y) = ((2 ^ (t - 1) : Int) : K) := by
    unfold lastBit
    have hl : Int.log 2 |1 + y| = 0 := by
      have hy : y < 1 := h.trans_le (inv_le_one_of_one_le₀ (one_le_pow₀ one_le_two))
      rw [abs_of_pos (by linarith)]
      have hp : (0 : K) < 1 + y := by linarith
      apply le_antisymm
      · have := (Int.lt_zpow_iff_log_lt (R := K) (b := 2) one_lt_two hp (x := 1)).1 (by push_cast; rw [zpow_one]; linarith)
        omega
      · exact (Int.zpow_le_iff_le_log (R := K) (b := 2) one_lt_two hp).1 (by rw [zpow_zero]; linarith)
    rw [hl]
    have : (t : Int) = ((t - 1 : Nat) : Int) + 1 := by omega
    rw [this, show (0 : Int) + 1 - (((t - 1 : Nat) : Int) + 1) = -((t - 1 : Nat) : Int) by ring, zpow_neg, zpow_natCast, one_div, inv_inv]
    push_cast; rfl
  have hlp := lastBit_pos t (1 + y)
  have hy2 : y / lastBit t (1 + y) < 1 / 2 := by
    have e2 : ((2 : K) ^ t)⁻¹ = 1 / 2 * lastBit t (1 + y) := by
      have : lastBit t (1 + y) = 1 / ((2 ^ (t - 1) : Int) : K) := by rw [← e1, one_div_one_div]
      rw [this]; push_cast
      obtain ⟨n, rfl⟩ : ∃ n, t = n + 1 := ⟨t - 1, by omega⟩
      rw [Nat.add_sub_cancel, pow_succ]
      field_simp
    rw [div_lt_iff₀ hlp, ← e2]; exact h
  unfold toBits
  rw [if_neg (by linarith), add_div, e1]
  have hz : 0 ≤ y / lastBit t (1 + y) := by positivity
  have hn : nearestEven (((2 ^ (t - 1) : Int) : K) + y / lastBit t (1 + y)) = 2 ^ (t - 1) := by
    unfold nearestEven
    have hf : ⌊((2 ^ (t - 1) : Int) : K) + y / lastBit t (1 + y)⌋ = 2 ^ (t - 1) := by
      rw [Int.floor_intCast_add, Int.floor_eq_zero_iff.2 ⟨hz, by linarith⟩, add_zero]
    rw [hf, if_pos]
    push_cast
    linarith
  rw [hn, ← e1, one_div, inv_mul_cancel₀ hlp.ne']

theorem toBits_tiny_below (t : Nat) (ht : 1 ≤ t) {y : K} (h0 : 0 ≤ y) (h : y < ((2 : K) ^ (t + 1))⁻¹) : toBits t (1 - y) = 1 := by
  rcases h0.eq_or_lt with rfl | h0
  · rw [sub_zero, toBits_one t ht]
  have hh : ((2 : K) ^ (t + 1))⁻¹ ≤ 1 / 4 := by
    rw [inv_eq_one_div]
    apply one_div_le_one_div_of_le (by norm_num)
    calc (4 : K) = 2 ^ 2 := by norm_num
      _ ≤ 2 ^ (t + 1) := pow_le_pow_right₀ one_le_two (by omega)
  have hp : (0 : K) < 1 - y := by linarith
  have hl : Int.log 2 |1 - y| = -1 := by
    rw [abs_of_pos hp]
    apply le_antisymm
    · have := (Int.lt_zpow_iff_log_lt (R := K) (b := 2) one_lt_two hp (x := 0)).1 (by rw [zpow_zero]; linarith)
      omega
    · exact (Int.zpow_le_iff_le_log (R := K) (b := 2) one_lt_two hp).1 (by push_cast; rw [zpow_neg, zpow_one]; linarith)
  have hlb : lastBit t (1 - y) = ((2 : K) ^ t)⁻¹ := by
    unfold lastBit
    rw [hl, show (-1 : Int) + 1 - (t : Int) = -(t : Int) by ring, zpow_neg, zpow_natCast]
  have hP : (0 : K) < (2 : K) ^ t := by positivity
  have hy2 : y * 2 ^ t < 1 / 2 := by
    have := mul_lt_mul_of_pos_right h hP
    rw [pow_succ, mul_inv, mul_comm ((2 : K) ^ t)⁻¹, mul_assoc, inv_mul_cancel₀ hP.ne'] at this
    linarith
  unfold toBits
  rw [if_neg (by linarith), hlb, div_inv_eq_mul]
  have hn : nearestEven ((1 - y) * (2 : K) ^ t) = 2 ^ t := by
    unfold nearestEven
    have hf : ⌊(1 - y) * (2 : K) ^ t⌋ = 2 ^ t - 1 := by
      rw [Int.floor_eq_iff]
      push_cast
      have := mul_pos h0 hP
      constructor <;> linarith
    rw [hf]
    push_cast
    rw [if_neg (by linarith), if_pos (by linarith)]
    ring
  rw [hn]
  push_cast
  exact mul_inv_cancel₀ hP.ne'

end

variable {T : Format}

/-! ### log odds to probability -/

theorem expF_cases (hT : T = .single ∨ T = .double) (X : ExpFn) {l : Fl ℝ} (h : l ≠ .nan) : Fl.expF T X l = .inf false ∨ ∃ y, Fl.expF T X l = .fin y ∧ 0 ≤ y := by
  rcases l with _ | s | x
  · exact absurd rfl h
  · cases s
    · exact Or.inl rfl
    · exact Or.inr ⟨0, rfl, le_rfl⟩
  · rcases round_nonneg hT (X.pos x) with h | ⟨y, h, _, h0⟩
    · exact Or.inl h
    · exact Or.inr ⟨y, h, h0⟩

theorem denominator_cases (hT : T = .single ∨ T = .double) {e : Fl ℝ} (h : e = .inf false ∨ ∃ y, e = .fin y ∧ 0 ≤ y) :
    T.conv (Fl.add (.fin 1) e) = .inf false ∨ ∃ z, T.conv (Fl.add (.fin 1) e) = .fin z ∧ 1 ≤ z := by
  obtain ⟨a1, _⟩ := scalar_facts hT
  rcases h with rfl | ⟨y, rfl, h0⟩
  · exact Or.inl rfl
  · show T.round (1 + y) = _ ∨ ∃ z, T.round (1 + y) = _ ∧ _
    rcases round_nonneg hT (x := 1 + y) (by linarith) with h | ⟨z, h, hz, _⟩
    · exact Or.inl h
    · refine Or.inr ⟨z, h, ?_⟩
      have := T.nearest_mono' a1 (show (1 : ℝ) ≤ 1 + y by linarith)
      rwa [nearest_one (K := ℝ) hT, ← hz] at this

theorem recip_cases (hT : T = .single ∨ T = .double) {v : Fl ℝ} (h : v = .inf false ∨ ∃ z, v = .fin z ∧ 1 ≤ z) : UnitNumber T (T.recip v) := by
  rcases h with rfl | ⟨z, rfl, h1⟩
  · refine ⟨0, rfl, ?_, le_rfl, zero_le_one⟩
    have := (nearest_unit (K := ℝ) hT le_rfl zero_le_one).2.2.1
    rwa [T.nearest_zero] at this
  · obtain ⟨q1, q2, q3, q4⟩ := nearest_unit (K := ℝ) hT (x := 1 / z) (by positivity) (by rw [div_le_one (by linarith)]; exact h1)
    refine ⟨_, ?_, q3, q1, q2⟩
    show (if z = 0 then _ else T.round (1 / z)) = _
    rw [if_neg (by linarith), q4]

theorem oneMinus_unit (hT : T = .single ∨ T = .double) {v : Fl ℝ} (h : UnitNumber T v) : UnitNumber T (T.sub (.fin 1) v) := by
  obtain ⟨q, rfl, _, h0, h1⟩ := h
  obtain ⟨q1, q2, q3, q4⟩ := nearest_unit (K := ℝ) hT (x := 1 + -q) (by linarith) (by linarith)
  exact ⟨_, q4, q3, q1, q2⟩

theorem logOddsFromF_unit (hT : T = .single ∨ T = .double) (X : ExpFn) {l : Fl ℝ} (h : l ≠ .nan) : UnitNumber T (logOddsFromF T X l) :=
  oneMinus_unit hT (recip_cases hT (denominator_cases hT (expF_cases hT X h)))

theorem logOddsFromF_nan (X : ExpFn) : logOddsFromF T X .nan = .nan := rfl

theorem logOddsFromF_eq_nan (hT : T = .single ∨ T = .double) (X : ExpFn) {l : Fl ℝ} : logOddsFromF T X l = .nan ↔ l = .nan := by
  constructor
  · intro h
    by_contra hc
    obtain ⟨y, hy, _⟩ := logOddsFromF_unit hT X hc
    rw [h] at hy
    simp at hy
  · rintro rfl; rfl

theorem expF_mono (hT : T = .single ∨ T = .double) (X : ExpFn) {a b : Fl ℝ} (h : Fl.le a b = true) : Fl.le (Fl.expF T X a) (Fl.expF T X b) = true := by
  obtain ⟨a1, _⟩ := scalar_facts hT
  rcases a with _ | s | x <;> rcases b with _ | r | y
  · simp [Fl.le] at h
  · simp [Fl.le] at h
  · simp [Fl.le] at h
  · simp [Fl.le] at h
  · cases s <;> cases r <;> simp_all [Fl.le, Fl.expF]
  · cases s
    · simp [Fl.le] at h
    · show Fl.le (.fin 0) (T.round (X.f y)) = true
      rcases round_nonneg hT (X.pos y) with h | ⟨z, h, _, h0⟩ <;> rw [h]
      · rfl
      · simpa [Fl.le] using h0
  · simp [Fl.le] at h
  · cases r
    · show Fl.le (T.round (X.f x)) (.inf false) = true
      rcases round_nonneg hT (X.pos x) with h | ⟨z, h, _, h0⟩ <;> rw [h] <;> rfl
    · simp [Fl.le] at h
  · exact T.round_mono a1 (X.mono _ _ (by simpa [Fl.le] using h))

theorem recip_anti (hT : T = .single ∨ T = .double) {v w : Fl ℝ} (hv : v = .inf false ∨ ∃ z, v = .fin z ∧ 1 ≤ z) (hw : w = .inf false ∨ ∃ z, w = .fin z ∧ 1 ≤ z) (h : Fl.le v w = true) :
    Fl.le (T.recip w) (T.recip v) = true := by
  obtain ⟨a1, _⟩ := scalar_facts hT
  have hu := recip_cases hT hv
  rcases hw with rfl | ⟨z, rfl, h1⟩
  · obtain ⟨y, hy, _, h0, _⟩ := hu
    rw [hy]
    simpa [Fl.le, Format.recip] using h0
  · rcases hv with rfl | ⟨x, rfl, h2⟩
    · simp [Fl.le] at h
    · have hxz : x ≤ z := by simpa [Fl.le] using h
      show Fl.le (if z = 0 then _ else T.round (1 / z)) (if x = 0 then _ else T.round (1 / x)) = true
      rw [if_neg (by linarith), if_neg (by linarith)]
      exact T.round_mono a1 (one_div_le_one_div_of_le (by linarith) hxz)

theorem sub_mono_right (ht : 1 ≤ T.t) {a b b' : Fl ℝ} (ha : a ≠ .nan) (h : Fl.le b' b = true) (hn : T.sub a b ≠ .nan) (hn' : T.sub a b' ≠ .nan) : Fl.le (T.sub a b) (T.sub a b') = true := by
  unfold Format.sub at *
  exact T.conv_mono ht (Fl.add_mono (Fl.le_refl' ha) (Fl.neg_anti h) (fun e => hn (by rw [e]; rfl)) (fun e => hn' (by rw [e]; rfl)))

theorem logOddsFromF_mono (hT : T = .single ∨ T = .double) (X : ExpFn) {a b : Fl ℝ} (h : Fl.le a b = true) : Fl.le (logOddsFromF T X a) (logOddsFromF T X b) = true := by
  obtain ⟨a1, _⟩ := scalar_facts hT
  have na : a ≠ .nan := by rintro rfl; simp [Fl.le] at h
  have nb : b ≠ .nan := by rintro rfl; cases a <;> simp [Fl.le] at h
  have da := denominator_cases hT (expF_cases hT X na)
  have db := denominator_cases hT (expF_cases hT X nb)
  have hd : Fl.le (T.conv (Fl.add (.fin 1) (Fl.expF T X a))) (T.conv (Fl.add (.fin 1) (Fl.expF T X b))) = true := by
    refine T.conv_mono a1 (Fl.add_mono (Fl.le_refl' (by simp)) (expF_mono hT X h) ?_ ?_)
    · intro e; rw [e] at da; simp [Format.conv] at da
    · intro e; rw [e] at db; simp [Format.conv] at db
  refine sub_mono_right a1 (by simp) (recip_anti hT da db hd) ?_ ?_
  · intro e
    obtain ⟨y, hy, _⟩ := oneMinus_unit hT (recip_cases hT da)
    rw [e] at hy; simp at hy
  · intro e
    obtain ⟨y, hy, _⟩ := oneMinus_unit hT (recip_cases hT db)
    rw [e] at hy; simp at hy

/-- without NaN and infinities: the probability is the one without bounds on the exponents -/
theorem logOddsFromF_fin (hT : T = .single ∨ T = .double) (ht : 1 ≤ T.t) (X : ExpFn) {x : ℝ} (hX : HasBits T.t (X.f x)) :
    logOddsFromF T X (.fin x) = .fin (logOddsFromR (ieee ℝ T.t ht) X x) := by
  obtain ⟨b1, b2, b3⟩ := scalar_wide hT
  have he : T.emin < 0 ∧ 0 < T.emax ∧ (T.t : Int) + 2 ≤ T.emax ∧ T.emin + (T.t : Int) + 2 ≤ 0 ∧ -T.emin < T.emax ∧ T.emax ≤ 2 - T.emin := by rcases hT with rfl | rfl <;> decide
  have hone : T.nearest (1 : ℝ) = 1 := nearest_one hT
  have hr1 : T.round (1 : ℝ) = .fin 1 := by
    have := (nearest_unit (K := ℝ) hT zero_le_one le_rfl).2.2.2
    rwa [hone] at this
  have hpt : ((2 : ℝ) ^ T.t)⁻¹ = (2 : ℝ) ^ (-(T.t : Int)) := by rw [zpow_neg, zpow_natCast]
  have hpt' : ((2 : ℝ) ^ (T.t + 1))⁻¹ = (2 : ℝ) ^ (-(T.t : Int) - 1) := by
    rw [← zpow_natCast, ← zpow_neg]; congr 1; push_cast; ring
  -- the last step for a small quotient
  have last : ∀ q : ℝ, 0 ≤ q → q ≤ (2 : ℝ) ^ (T.emin) → toBits T.t (1 - q) = 1 := fun q h0 h =>
    toBits_tiny_below T.t ht h0 (h.trans_lt (by rw [hpt']; exact zpow_lt_zpow_right₀ one_lt_two (by omega)))
  -- a large denominator
  have big : ∀ z : ℝ, (2 : ℝ) ^ (-T.emin) ≤ z → toBits T.t (1 - toBits T.t (1 / z)) = 1 := by
    intro z hz
    have hz0 : 0 < z := (zpow_pos two_pos _).trans_le hz
    have h1 : 1 / z ≤ (2 : ℝ) ^ T.emin := by
      rw [zpow_neg] at hz
      rw [div_le_iff₀ hz0]
      calc (1 : ℝ) = (2 : ℝ) ^ T.emin * ((2 : ℝ) ^ T.emin)⁻¹ := (mul_inv_cancel₀ (zpow_pos two_pos _).ne').symm
        _ ≤ _ := mul_le_mul_of_nonneg_left hz (zpow_pos two_pos _).le
    refine last _ (toBits_nonneg _ (by positivity)) ?_
    rw [← toBits_two_pow T.t ht T.emin]
    exact toBits_mono _ ht _ _ h1
  -- the steps after the denominator
  have after : ∀ z : ℝ, 1 ≤ z → T.sub (.fin 1) (T.recip (.fin z)) = .fin (toBits T.t (1 - toBits T.t (1 / z))) := by
    intro z hz
    have hz0 : 0 < z := by linarith
    obtain ⟨q1, q2, q3, q4⟩ := nearest_unit (K := ℝ) hT (x := 1 / z) (by positivity) (by rw [div_le_one hz0]; exact hz)
    have e1 : T.recip (.fin z) = .fin (T.nearest (1 / z)) := by
      show (if z = 0 then _ else T.round (1 / z)) = _
      rw [if_neg (by linarith), q4]
    rw [e1]
    show T.round (1 + -T.nearest (1 / z)) = _
    obtain ⟨r1, r2, r3, r4⟩ := nearest_unit (K := ℝ) hT (x := 1 + -T.nearest (1 / z)) (by linarith) (by linarith)
    rw [r4]
    congr 1
    obtain ⟨k1, hk1⟩ := q3.multiple
    obtain ⟨k2, hk2⟩ := (pow_inFormat (K := ℝ) hT (n := 0) (by omega) (by omega)).multiple
    rw [zpow_zero] at hk2
    rw [T.nearest_sum' ht (k := k2 - k1) (by push_cast; rw [sub_mul, ← hk1, ← hk2]; ring), ← sub_eq_add_neg]
    rcases le_or_gt ((2 : ℝ) ^ T.emin) (1 / z) with h | h
    · rw [T.nearest_normal (x := 1 / z) (by rwa [abs_of_nonneg (by positivity)])]
    · rw [last _ q1 (T.nearest_small_bounds ht (by positivity) h).2, last _ (toBits_nonneg _ (by positivity)) ?_]
      rw [← toBits_two_pow T.t ht T.emin]
      exact toBits_mono _ ht _ _ h.le
  -- infinite denominators
  have infinite : T.sub (.fin 1) (T.recip (.inf false)) = (.fin 1 : Fl ℝ) := by
    show T.round (1 + -0) = _
    rw [neg_zero, add_zero, hr1]
  have hle : (2 : ℝ) ^ (-T.emin) ≤ (2 : ℝ) ^ T.emax := zpow_le_zpow_right₀ one_le_two (by omega)
  show T.sub (.fin 1) (T.recip (T.conv (Fl.add (.fin 1) (T.round (X.f x))))) = .fin (toBits T.t (1 - toBits T.t (1 / toBits T.t (1 + X.f x))))
  have h0 := X.pos x
  rcases lt_or_ge (X.f x) ((2 : ℝ) ^ T.emin) with hs | hs
  · -- the exponential underflows
    have b := T.nearest_small_bounds ht h0 hs
    have lt1 : (2 : ℝ) ^ T.emin < ((2 : ℝ) ^ T.t)⁻¹ := by rw [hpt]; exact zpow_lt_zpow_right₀ one_lt_two (by omega)
    have hone' : (2 : ℝ) ^ T.emin ≤ 1 := zpow_le_one_of_nonpos₀ one_le_two he.1.le
    rw [(nearest_unit (K := ℝ) hT h0 (hs.le.trans hone')).2.2.2]
    show T.sub (.fin 1) (T.recip (T.round (1 + T.nearest (X.f x)))) = _
    have hn : T.nearest (1 + T.nearest (X.f x)) = 1 := by
      rw [T.nearest_normal, toBits_tiny T.t ht b.1 (b.2.trans_lt lt1)]
      rw [abs_of_nonneg (by linarith)]; linarith
    have hf := (round_fin (K := ℝ) hT (x := 1 + T.nearest (X.f x)) (by linarith) (by
      have : (2 : ℝ) ≤ 2 ^ (T.t + 1) := by
        calc (2 : ℝ) = 2 ^ 1 := (pow_one _).symm
          _ ≤ _ := pow_le_pow_right₀ one_le_two (by omega)
      linarith)).1
    rw [hf, hn, after 1 le_rfl, toBits_tiny T.t ht h0 (hs.trans lt1)]
  · have hn : T.nearest (X.f x) = X.f x := by rw [T.nearest_normal (by rwa [abs_of_nonneg h0]), toBits_of_hasBits T.t ht hX]
    have hd : T.nearest (1 + X.f x) = toBits T.t (1 + X.f x) := T.nearest_normal (by rw [abs_of_nonneg (by linarith)]; linarith)
    have hd1 : X.f x ≤ toBits T.t (1 + X.f x) := by
      have := toBits_mono T.t ht (X.f x) (1 + X.f x) (by linarith)
      rwa [toBits_of_hasBits T.t ht hX] at this
    have hd2 : 1 ≤ toBits T.t (1 + X.f x) := by
      have := toBits_mono T.t ht (1 : ℝ) (1 + X.f x) (by linarith)
      rwa [toBits_one T.t ht] at this
    rcases lt_or_ge (X.f x) ((2 : ℝ) ^ T.emax) with hb | hb
    · have e1 : T.round (X.f x) = .fin (X.f x) := by
        unfold Format.round
        rw [hn, if_pos (by rwa [abs_of_nonneg h0])]
      rw [e1]
      show T.sub (.fin 1) (T.recip (T.round (1 + X.f x))) = _
      rcases lt_or_ge (toBits T.t (1 + X.f x)) ((2 : ℝ) ^ T.emax) with hc | hc
      · have e2 : T.round (1 + X.f x) = .fin (toBits T.t (1 + X.f x)) := by
          unfold Format.round
          rw [hd, if_pos (by rwa [abs_of_nonneg (by linarith)])]
        rw [e2, after _ hd2]
      · have e2 : T.round (1 + X.f x) = .inf false := by
          unfold Format.round
          rw [hd, if_neg (by rw [abs_of_nonneg (by linarith)]; exact not_lt.2 hc), decide_eq_false (by linarith)]
        rw [e2, infinite, big _ (hle.trans hc)]
    · have e1 : T.round (X.f x) = .inf false := by
        unfold Format.round
        rw [hn, if_neg (by rw [abs_of_nonneg h0]; exact not_lt.2 hb), decide_eq_false (not_lt.2 h0)]
      rw [e1]
      show T.sub (.fin 1) (T.recip (.inf false)) = _
      rw [infinite, big _ (hle.trans (hb.trans hd1))]

/-! ### sums, differences and products -/

section
variable {a a' b b' : Fl ℝ}

theorem add_ne_nan (h : T.add a b ≠ .nan) : Fl.add a b ≠ .nan ∧ a ≠ .nan ∧ b ≠ .nan := by
  have h1 : Fl.add a b ≠ .nan := fun e => h (by unfold Format.add; rw [e]; rfl)
  exact ⟨h1, fun e => h1 (by rw [e]; rfl), fun e => h1 (by rw [e, Fl.add_nanR])⟩

theorem sub_ne_nan (h : T.sub a b ≠ .nan) : Fl.add a (Fl.neg b) ≠ .nan ∧ a ≠ .nan ∧ b ≠ .nan := by
  have h1 : Fl.add a (Fl.neg b) ≠ .nan := fun e => h (by unfold Format.sub; rw [e]; rfl)
  exact ⟨h1, fun e => h1 (by rw [e]; rfl), fun e => h1 (by rw [e]; exact Fl.add_nanR _)⟩

theorem mul_ne_nan (h : T.mul a b ≠ .nan) : Fl.mul a b ≠ .nan := fun e => h (by unfold Format.mul; rw [e]; rfl)

theorem addF_mono (ht : 1 ≤ T.t) (h1 : Fl.le a a' = true) (h2 : Fl.le b b' = true) (hn : T.add a b ≠ .nan) (hn' : T.add a' b' ≠ .nan) : Fl.le (T.add a b) (T.add a' b') = true :=
  T.conv_mono ht (Fl.add_mono h1 h2 (add_ne_nan hn).1 (add_ne_nan hn').1)

theorem subF_mono (ht : 1 ≤ T.t) (h1 : Fl.le a a' = true) (h2 : Fl.le b' b = true) (hn : T.sub a b ≠ .nan) (hn' : T.sub a' b' ≠ .nan) : Fl.le (T.sub a b) (T.sub a' b') = true :=
  T.conv_mono ht (Fl.add_mono h1 (Fl.neg_anti h2) (sub_ne_nan hn).1 (sub_ne_nan hn').1)

end

/-- a counter converted to the scalar type -/
theorem count_round (hT : T = .single ∨ T = .double) {n : Nat} (h : n < 2 ^ 64) :
    T.round (n : ℝ) = .fin (toBits T.t (n : ℝ)) ∧ 0 ≤ toBits T.t (n : ℝ) ∧ toBits T.t (n : ℝ) ≤ 2 ^ 64 ∧ (n = 0 → toBits T.t (n : ℝ) = 0) ∧ (0 < n → 1 ≤ toBits T.t (n : ℝ)) := by
  obtain ⟨a1, _⟩ := scalar_facts hT
  have hw : T.emin ≤ 64 ∧ 64 < T.emax ∧ T.emin < 0 := by rcases hT with rfl | rfl <;> decide
  have hle : |(n : ℝ)| ≤ (2 : ℝ) ^ (64 : Int) := by
    rw [abs_of_nonneg (Nat.cast_nonneg _)]
    have : (n : ℝ) ≤ 2 ^ 64 := by exact_mod_cast h.le
    exact_mod_cast this
  obtain ⟨r1, r2, _⟩ := round_bounded hT hw.1 hw.2.1 hle
  have e : T.nearest (n : ℝ) = toBits T.t (n : ℝ) := by
    rcases Nat.eq_zero_or_pos n with rfl | h0
    · rw [Nat.cast_zero, T.nearest_zero, toBits_zero]
    · apply T.nearest_normal
      have : (1 : ℝ) ≤ n := by exact_mod_cast h0
      rw [abs_of_nonneg (by linarith)]
      exact (zpow_le_one_of_nonpos₀ one_le_two hw.2.2.le).trans this
  rw [e] at r1 r2
  have h0 := toBits_nonneg (K := ℝ) T.t (x := n) (Nat.cast_nonneg _)
  refine ⟨r1, h0, ?_, ?_, fun h0 => ?_⟩
  · rw [abs_of_nonneg h0] at r2; exact_mod_cast r2
  · rintro rfl; rw [Nat.cast_zero, toBits_zero]
  · have := toBits_mono (K := ℝ) T.t a1 1 n (by exact_mod_cast h0)
    rwa [toBits_one T.t a1] at this

theorem prod_fin (hT : T = .single ∨ T = .double) {c x : ℝ} (hc : |c| ≤ 2 ^ 64) (hx : ModerateLog x) :
    T.mul (.fin c) (.fin x) = .fin (T.nearest (c * x)) ∧ |T.nearest (c * x)| ≤ 2 ^ 84 ∧ InFormat T (T.nearest (c * x)) := by
  have hw : T.emin ≤ 84 ∧ 84 < T.emax := by rcases hT with rfl | rfl <;> decide
  have h : |c * x| ≤ (2 : ℝ) ^ (84 : Int) := by
    rw [abs_mul]
    calc |c| * |x| ≤ 2 ^ 64 * 2 ^ 20 := mul_le_mul hc hx (abs_nonneg _) (by positivity)
      _ = (2 : ℝ) ^ (84 : Int) := by norm_num
  obtain ⟨r1, r2, r3⟩ := round_bounded hT hw.1 hw.2 h
  exact ⟨r1, by exact_mod_cast r2, r3⟩

theorem sum_fin (hT : T = .single ∨ T = .double) (ht : 1 ≤ T.t) {a b : ℝ} {k : Nat} (hk : k ≤ 100) (ha : |a| ≤ 2 ^ k) (hb : |b| ≤ 2 ^ k) (fa : InFormat T a) (fb : InFormat T b) :
    T.add (.fin a) (.fin b) = .fin (toBits T.t (a + b)) ∧ |toBits T.t (a + b)| ≤ 2 ^ (k + 1) ∧ InFormat T (toBits T.t (a + b)) := by
  have hw : T.emin ≤ 0 ∧ 102 < T.emax := by rcases hT with rfl | rfl <;> decide
  have h : |a + b| ≤ (2 : ℝ) ^ ((k + 1 : Nat) : Int) := by
    rw [zpow_natCast, pow_succ]
    have := abs_add_le a b
    linarith
  obtain ⟨r1, r2, r3⟩ := round_bounded hT (k := ((k + 1 : Nat) : Int)) (by omega) (by omega) h
  obtain ⟨k1, h1⟩ := fa.multiple
  obtain ⟨k2, h2⟩ := fb.multiple
  have e := T.nearest_sum' ht (z := a + b) (k := k1 + k2) (by push_cast; rw [add_mul, ← h1, ← h2])
  rw [e] at r1 r2 r3
  rw [zpow_natCast] at r2
  exact ⟨r1, r2, r3⟩

theorem inFormat_neg {a : ℝ} (h : InFormat T a) : InFormat T (-a) := by
  obtain ⟨⟨m, e, h1, h2, h3⟩, h4⟩ := h
  exact ⟨⟨-m, e, by rwa [abs_neg], h2, by rw [h3]; push_cast; ring⟩, by rwa [abs_neg]⟩

theorem diff_fin (hT : T = .single ∨ T = .double) (ht : 1 ≤ T.t) {a b : ℝ} {k : Nat} (hk : k ≤ 100) (ha : |a| ≤ 2 ^ k) (hb : |b| ≤ 2 ^ k) (fa : InFormat T a) (fb : InFormat T b) :
    T.sub (.fin a) (.fin b) = .fin (toBits T.t (a - b)) ∧ |toBits T.t (a - b)| ≤ 2 ^ (k + 1) ∧ InFormat T (toBits T.t (a - b)) := by
  have := sum_fin hT ht (b := -b) hk ha (by rwa [abs_neg]) fa (inFormat_neg fb)
  rw [← sub_eq_add_neg] at this
  exact this

theorem combine_fin (hT : T = .single ∨ T = .double) (ht : 1 ≤ T.t) {c1 c2 c3 x1 x2 x3 : ℝ} (h1 : |c1| ≤ 2 ^ 64) (h2 : |c2| ≤ 2 ^ 64) (h3 : |c3| ≤ 2 ^ 64) (m1 : ModerateLog x1) (m2 : ModerateLog x2) (m3 : ModerateLog x3) :
    T.sub (T.add (T.mul (.fin c1) (.fin x1)) (T.mul (.fin c2) (.fin x2))) (T.mul (.fin c3) (.fin x3)) =
      .fin (toBits T.t (toBits T.t (T.nearest (c1 * x1) + T.nearest (c2 * x2)) - T.nearest (c3 * x3))) := by
  obtain ⟨p1, p2, p3⟩ := prod_fin hT h1 m1
  obtain ⟨q1, q2, q3⟩ := prod_fin hT h2 m2
  obtain ⟨r1, r2, r3⟩ := prod_fin hT h3 m3
  obtain ⟨s1, s2, s3⟩ := sum_fin hT ht (k := 84) (by norm_num) p2 q2 p3 q3
  obtain ⟨u1, _⟩ := diff_fin hT ht (k := 85) (by norm_num) s2 (r2.trans (pow_le_pow_right₀ one_le_two (by norm_num))) s3 r3
  rw [p1, q1, r1, s1, u1]

theorem prod_ordinary (hT : T = .single ∨ T = .double) {c x : ℝ} (hc : c = 0 ∨ 1 / 2 ^ 60 ≤ |c|) (hx : OrdinaryLog x) : T.nearest (c * x) = toBits T.t (c * x) := by
  rcases hc with rfl | hc
  · rw [zero_mul, T.nearest_zero, toBits_zero]
  rcases hx with rfl | ⟨hx, _⟩
  · rw [mul_zero, T.nearest_zero, toBits_zero]
  apply T.nearest_normal
  rw [abs_mul]
  have hw : T.emin ≤ -120 := by rcases hT with rfl | rfl <;> decide
  calc (2 : ℝ) ^ T.emin ≤ (2 : ℝ) ^ (-120 : Int) := zpow_le_zpow_right₀ one_le_two hw
    _ = 1 / 2 ^ 60 * (1 / 2 ^ 60) := by norm_num
    _ ≤ |c| * |x| := mul_le_mul hc hx (by positivity) (abs_nonneg _)

theorem ordinary_moderate {x : ℝ} (h : OrdinaryLog x) : ModerateLog x := by
  rcases h with rfl | h
  · unfold ModerateLog; rw [abs_zero]; positivity
  · exact h.2

theorem wrap_lt (a b : Nat) : wrapMinusOne a b < 2 ^ 64 := by unfold wrapMinusOne; omega

/-- evidence without infinities and NaN -/
theorem evidenceF_fin (hT : T = .single ∨ T = .double) (ht : 1 ≤ T.t) {m : Ivm} (hm : ModerateIvm m) (f n : Nat) : ∃ x, evidenceF T (ivmFl m) f n = .fin x := by
  obtain ⟨m3, m1, m2⟩ := hm
  obtain ⟨c1, c2, c3, _⟩ := count_round hT (Nat.mod_lt f (show 0 < 2 ^ 64 by norm_num))
  obtain ⟨d1, d2, d3, _⟩ := count_round hT (Nat.mod_lt n (show 0 < 2 ^ 64 by norm_num))
  obtain ⟨e1, e2, e3, _⟩ := count_round hT (wrap_lt f n)
  unfold evidenceF
  rw [c1, d1, e1]
  exact ⟨_, combine_fin hT ht ((abs_of_nonneg c2).trans_le c3) ((abs_of_nonneg d2).trans_le d3) ((abs_of_nonneg e2).trans_le e3) m1 m2 m3⟩

/-- evidence for ordinary models -/
theorem evidenceF_ordinary (hT : T = .single ∨ T = .double) (ht : 1 ≤ T.t) {m : Ivm} (hm : OrdinaryIvm m) {f n : Nat} (hf : f < 2 ^ 64) (hn : n < 2 ^ 64) :
    evidenceF T (ivmFl m) f n = .fin (evidenceR (ieee ℝ T.t ht) m f n) := by
  obtain ⟨m3, m1, m2⟩ := hm
  obtain ⟨c1, c2, c3, c4, c5⟩ := count_round hT hf
  obtain ⟨d1, d2, d3, d4, d5⟩ := count_round hT hn
  obtain ⟨e1, e2, e3, e4, e5⟩ := count_round hT (wrap_lt f n)
  have small : ∀ {k : Nat}, (k = 0 → toBits T.t (k : ℝ) = 0) → (0 < k → 1 ≤ toBits T.t (k : ℝ)) → toBits T.t (k : ℝ) = 0 ∨ 1 / 2 ^ 60 ≤ |toBits T.t (k : ℝ)| := by
    intro k h0 h1
    rcases Nat.eq_zero_or_pos k with h | h
    · exact Or.inl (h0 h)
    · refine Or.inr (le_trans ?_ ((h1 h).trans (le_abs_self _)))
      norm_num
  unfold evidenceF
  have mf : f % 2 ^ 64 = f := Nat.mod_eq_of_lt hf
  have mn : n % 2 ^ 64 = n := Nat.mod_eq_of_lt hn
  rw [mf, mn, c1, d1, e1]
  show T.sub (T.add (T.mul (.fin (toBits T.t (f : ℝ))) (.fin m.logFree)) (T.mul (.fin (toBits T.t (n : ℝ))) (.fin m.logOcc))) (T.mul (.fin (toBits T.t (wrapMinusOne f n : ℝ))) (.fin m.logPrior)) = _
  rw [combine_fin hT ht ((abs_of_nonneg c2).trans_le c3) ((abs_of_nonneg d2).trans_le d3) ((abs_of_nonneg e2).trans_le e3) (ordinary_moderate m1) (ordinary_moderate m2) (ordinary_moderate m3),
    prod_ordinary hT (small c4 c5) m1, prod_ordinary hT (small d4 d5) m2, prod_ordinary hT (small e4 e5) m3]
  rfl

theorem countF_le (hT : T = .single ∨ T = .double) (ht : 1 ≤ T.t) {k k' : Nat} (h : k ≤ k') (h' : k' < 2 ^ 64) :
    ∃ x y : ℝ, T.round (k : ℝ) = .fin x ∧ T.round (k' : ℝ) = .fin y ∧ 0 ≤ x ∧ x ≤ y := by
  obtain ⟨c1, c2, _⟩ := count_round hT (h.trans_lt h')
  obtain ⟨d1, _⟩ := count_round hT h'
  exact ⟨_, _, c1, d1, c2, toBits_mono _ ht _ _ (by exact_mod_cast h)⟩

theorem evidenceF_hits (hT : T = .single ∨ T = .double) (m : IvmFl) (ho : Fl.le (.fin 0) m.logOcc = true) (hp : Fl.le m.logPrior (.fin 0) = true) {f n n' : Nat} (hn : 0 < n) (h : n ≤ n') (hw : f + n' < 2 ^ 64)
    (h1 : evidenceF T m f n ≠ .nan) (h2 : evidenceF T m f n' ≠ .nan) : Fl.le (evidenceF T m f n) (evidenceF T m f n') = true := by
  obtain ⟨ht, _⟩ := scalar_facts hT
  unfold evidenceF at h1 h2 ⊢
  have mf : f % 2 ^ 64 = f := Nat.mod_eq_of_lt (by omega)
  have mn : n % 2 ^ 64 = n := Nat.mod_eq_of_lt (by omega)
  have mn' : n' % 2 ^ 64 = n' := Nat.mod_eq_of_lt (by omega)
  rw [mf, mn] at h1
  rw [mf, mn'] at h2
  rw [mf, mn, mn']
  obtain ⟨x, y, e1, e2, h0, hxy⟩ := countF_le hT ht h (show n' < 2 ^ 64 by omega)
  obtain ⟨u, v, e3, e4, h0', huv⟩ := countF_le hT ht (show wrapMinusOne f n ≤ wrapMinusOne f n' by rw [wrapMinusOne_eq hn (by omega), wrapMinusOne_eq (by omega) (by omega)]; omega) (wrap_lt f n')
  rw [e1, e3] at h1
  rw [e2, e4] at h2
  rw [e1, e2, e3, e4]
  obtain ⟨_, a1, a2⟩ := sub_ne_nan h1
  obtain ⟨_, b1, b2⟩ := sub_ne_nan h2
  obtain ⟨_, p1, p2⟩ := add_ne_nan a1
  obtain ⟨_, q1, q2⟩ := add_ne_nan b1
  refine subF_mono ht (addF_mono ht (Fl.le_refl' p1) ?_ a1 b1) ?_ h1 h2
  · exact T.conv_mono ht (Fl.mul_mono h0 hxy ho (mul_ne_nan p2) (mul_ne_nan q2))
  · exact T.conv_mono ht (Fl.mul_anti h0' huv hp (mul_ne_nan a2) (mul_ne_nan b2))

theorem evidenceF_misses (hT : T = .single ∨ T = .double) (m : IvmFl) (hl : Fl.le m.logFree (.fin 0) = true) (hp : Fl.le (.fin 0) m.logPrior = true) {f f' n : Nat} (hn : 0 < n) (h : f ≤ f') (hw : f' + n < 2 ^ 64)
    (h1 : evidenceF T m f n ≠ .nan) (h2 : evidenceF T m f' n ≠ .nan) : Fl.le (evidenceF T m f' n) (evidenceF T m f n) = true := by
  obtain ⟨ht, _⟩ := scalar_facts hT
  unfold evidenceF at h1 h2 ⊢
  have mf : f % 2 ^ 64 = f := Nat.mod_eq_of_lt (by omega)
  have mn : n % 2 ^ 64 = n := Nat.mod_eq_of_lt (by omega)
  have mf' : f' % 2 ^ 64 = f' := Nat.mod_eq_of_lt (by omega)
  rw [mf, mn] at h1
  rw [mf', mn] at h2
  rw [mf, mn, mf']
  obtain ⟨x, y, e1, e2, h0, hxy⟩ := countF_le hT ht h (show f' < 2 ^ 64 by omega)
  obtain ⟨u, v, e3, e4, h0', huv⟩ := countF_le hT ht (show wrapMinusOne f n ≤ wrapMinusOne f' n by rw [wrapMinusOne_eq hn (by omega), wrapMinusOne_eq (by omega) (by omega)]; omega) (wrap_lt f' n)
  rw [e1, e3] at h1
  rw [e2, e4] at h2
  rw [e1, e2, e3, e4]
  obtain ⟨_, a1, a2⟩ := sub_ne_nan h1
  obtain ⟨_, b1, b2⟩ := sub_ne_nan h2
  obtain ⟨_, p1, p2⟩ := add_ne_nan a1
  obtain ⟨_, q1, q2⟩ := add_ne_nan b1
  refine subF_mono ht (addF_mono ht ?_ (Fl.le_refl' p2) b1 a1) ?_ h2 h1
  · exact T.conv_mono ht (Fl.mul_anti h0 hxy hl (mul_ne_nan p1) (mul_ne_nan q1))
  · exact T.conv_mono ht (Fl.mul_mono h0' huv hp (mul_ne_nan a2) (mul_ne_nan b2))

/-- when the evidence is NaN -/
theorem evidenceF_nan (hT : T = .single ∨ T = .double) (m : IvmFl) {p : ℝ} (hp : m.logPrior = .fin p) (hpm : ModerateLog p) (hl : LogOddsValue m.logFree) (ho : LogOddsValue m.logOcc) {f n : Nat} (hn : 0 < n) (hw : f + n < 2 ^ 64) :
    evidenceF T m f n = .nan ↔ ∃ s, m.logFree = .inf s ∧ (f = 0 ∨ m.logOcc = .inf !s) := by
  obtain ⟨ht, _⟩ := scalar_facts hT
  obtain ⟨c1, c2, c3, c4, c5⟩ := count_round hT (show f < 2 ^ 64 by omega)
  obtain ⟨d1, d2, d3, d4, d5⟩ := count_round hT (show n < 2 ^ 64 by omega)
  obtain ⟨e1, e2, e3, e4, e5⟩ := count_round hT (wrap_lt f n)
  obtain ⟨r1, _⟩ := prod_fin hT (c := toBits T.t (wrapMinusOne f n : ℝ)) ((abs_of_nonneg e2).trans_le e3) hpm
  have hd : toBits T.t (n : ℝ) ≠ 0 := by have := d5 hn; linarith
  have hdl : ¬ toBits T.t (n : ℝ) < 0 := not_lt.2 d2
  have hcl : ¬ toBits T.t (f : ℝ) < 0 := not_lt.2 c2
  have hc : toBits T.t (f : ℝ) = 0 ↔ f = 0 := ⟨fun h => by by_contra h0; have := c5 (by omega); linarith, c4⟩
  have mf : f % 2 ^ 64 = f := Nat.mod_eq_of_lt (by omega)
  have mn : n % 2 ^ 64 = n := Nat.mod_eq_of_lt (by omega)
  unfold evidenceF
  rw [mf, mn, c1, d1, e1, hp, r1]
  generalize T.nearest (toBits T.t (wrapMinusOne f n : ℝ) * p) = r
  have fin2 : ∀ {c x : ℝ}, 0 ≤ c → c ≤ 2 ^ 64 → ModerateLog x → ∃ v, T.mul (.fin c) (.fin x) = .fin v ∧ |v| ≤ 2 ^ 84 ∧ InFormat T v := fun h0 h1 hx => ⟨_, prod_fin hT (by rwa [abs_of_nonneg h0]) hx⟩
  have hinf : ∀ c : ℝ, ¬ c < 0 → ∀ s, T.mul (.fin c) (.inf s) = if c = 0 then (.nan : Fl ℝ) else .inf s := by
    intro c hc s
    unfold Format.mul
    simp only [Fl.mul]
    split
    · rfl
    · rw [decide_eq_false hc]; cases s <;> rfl
  rcases hl with ⟨s, hl⟩ | ⟨x, hl, hx⟩ <;> rcases ho with ⟨r, ho⟩ | ⟨y, ho, hy⟩ <;> rw [hl, ho]
  · rw [hinf _ hcl, hinf _ hdl, if_neg hd]
    by_cases h0 : f = 0
    · rw [if_pos (hc.2 h0)]; simp [h0, Format.add, Format.sub, Format.conv, Fl.add]
    · rw [if_neg (fun h => h0 (hc.1 h))]
      cases s <;> cases r <;> simp [h0, Format.add, Format.sub, Format.conv, Fl.add, Fl.neg]
  · obtain ⟨v, hv, _⟩ := fin2 d2 d3 hy
    rw [hinf _ hcl, hv]
    by_cases h0 : f = 0
    · rw [if_pos (hc.2 h0)]; simp [h0, Format.add, Format.sub, Format.conv, Fl.add]
    · rw [if_neg (fun h => h0 (hc.1 h))]; simp [h0, Format.add, Format.sub, Format.conv, Fl.add, Fl.neg]
  · obtain ⟨v, hv, _⟩ := fin2 c2 c3 hx
    rw [hv, hinf _ hdl, if_neg hd]
    simp [Format.add, Format.sub, Format.conv, Fl.add, Fl.neg]
  · obtain ⟨v, hv, v2, v3⟩ := fin2 c2 c3 hx
    obtain ⟨w, hw, w2, w3⟩ := fin2 d2 d3 hy
    rw [hv, hw, (sum_fin hT ht (k := 84) (by norm_num) v2 w2 v3 w3).1]
    simp [Format.sub, Format.conv, Fl.add, Fl.neg, T.round_ne_nan]

/-! ### numbers near 1 -/

/-- numbers of `t` bits that are not 1 keep a distance from it -/
theorem gap_one (t : Nat) (ht : 1 ≤ t) {s : ℝ} (h : HasBits t s) (h0 : 0 ≤ s) (h1 : s ≠ 1) : ((2 : ℝ) ^ t)⁻¹ ≤ |s - 1| := by
  have hle : ((2 : ℝ) ^ t)⁻¹ ≤ 1 / 2 := by
    rw [inv_eq_one_div]
    apply one_div_le_one_div_of_le (by norm_num)
    calc (2 : ℝ) = 2 ^ 1 := by norm_num
      _ ≤ 2 ^ t := pow_le_pow_right₀ one_le_two ht
  rcases lt_or_ge s (1 / 2) with hs | hs
  · rw [abs_of_nonpos (by linarith)]; linarith
  · have hp : 0 < s := by linarith
    have hl : -1 ≤ Int.log 2 s := (Int.zpow_le_iff_le_log (R := ℝ) (b := 2) one_lt_two hp).1 (by push_cast; rw [zpow_neg, zpow_one]; linarith)
    have e := toBits_of_hasBits t ht h
    unfold toBits at e
    rw [if_neg (by linarith)] at e
    have eq : lastBit t s = ((2 ^ (Int.log 2 s + 1).toNat : Int) : ℝ) * ((2 : ℝ) ^ t)⁻¹ := by
      unfold lastBit
      rw [abs_of_pos hp]
      have : Int.log 2 s + 1 - (t : Int) = (((Int.log 2 s + 1).toNat : Nat) : Int) + -(t : Int) := by omega
      rw [this, zpow_add₀ two_ne_zero, zpow_neg, zpow_natCast, zpow_natCast]
      push_cast; rfl
    have hP : (0 : ℝ) < (2 : ℝ) ^ t := by positivity
    obtain ⟨k, hk⟩ : ∃ k : Int, s = (k : ℝ) * ((2 : ℝ) ^ t)⁻¹ := by
      generalize nearestEven (s / lastBit t s) = n at e
      refine ⟨n * 2 ^ (Int.log 2 s + 1).toNat, ?_⟩
      rw [eq] at e
      push_cast at e ⊢
      linarith
    have hd : s - 1 = ((k - 2 ^ t : Int) : ℝ) * ((2 : ℝ) ^ t)⁻¹ := by
      rw [hk]; push_cast; rw [sub_mul, mul_inv_cancel₀ hP.ne']
    have hne : k - 2 ^ t ≠ 0 := fun h0 => h1 (by rw [h0] at hd; simp at hd; linarith)
    rw [hd, abs_mul, abs_of_pos (inv_pos.2 hP)]
    have : (1 : ℝ) ≤ |((k - 2 ^ t : Int) : ℝ)| := by exact_mod_cast Int.one_le_abs hne
    nlinarith [inv_pos.2 hP]

/-! ### weights -/

namespace WeightsF

theorem evidence_fin (hT : T = .single ∨ T = .double) (ht : 1 ≤ T.t) {m : Ivm} {f o : ℝ} (hf : InFormat T f) (ho : InFormat T o) (f0 : 0 ≤ f) (o0 : 0 ≤ o) (f1 : f ≤ 2 ^ 60) (o1 : o ≤ 2 ^ 60) :
    (ModerateIvm m → ∃ x, evidence T (ivmFl m) (.fin f) (.fin o) = .fin x) ∧
    (OrdinaryIvm m → (f = 0 ∨ 1 / 2 ^ 60 ≤ f) → (o = 0 ∨ 1 / 2 ^ 60 ≤ o) → evidence T (ivmFl m) (.fin f) (.fin o) = .fin (Weights.evidence (ieee ℝ T.t ht) m f o)) := by
  have hw : T.emin ≤ 0 ∧ 0 < T.emax ∧ T.t ≤ 60 := by rcases hT with rfl | rfl <;> decide
  obtain ⟨s1, s2, s3⟩ := sum_fin hT ht (k := 60) (by norm_num) (by rwa [abs_of_nonneg f0]) (by rwa [abs_of_nonneg o0]) hf ho
  have one : InFormat T (1 : ℝ) := by
    have := pow_inFormat (K := ℝ) hT hw.1 hw.2.1
    rwa [zpow_zero] at this
  obtain ⟨d1, d2, d3⟩ := diff_fin hT ht (k := 61) (by norm_num) s2 (by rw [abs_one]; exact one_le_pow₀ one_le_two) s3 one
  have le64 : ∀ {x : ℝ} {k : Nat}, k ≤ 64 → |x| ≤ 2 ^ k → |x| ≤ 2 ^ 64 := fun hk h => h.trans (pow_le_pow_right₀ one_le_two hk)
  have F := le64 (x := f) (k := 60) (by norm_num) (by rwa [abs_of_nonneg f0])
  have O := le64 (x := o) (k := 60) (by norm_num) (by rwa [abs_of_nonneg o0])
  have D := le64 (k := 62) (by norm_num) d2
  unfold evidence
  rw [s1, d1]
  constructor
  · rintro ⟨m3, m1, m2⟩
    exact ⟨_, combine_fin hT ht F O D m1 m2 m3⟩
  · rintro ⟨m3, m1, m2⟩ hf' ho'
    show T.sub (T.add (T.mul (.fin f) (.fin m.logFree)) (T.mul (.fin o) (.fin m.logOcc))) (T.mul (.fin (toBits T.t (toBits T.t (f + o) - 1))) (.fin m.logPrior)) = _
    have hd : toBits T.t (toBits T.t (f + o) - 1) = 0 ∨ 1 / 2 ^ 60 ≤ |toBits T.t (toBits T.t (f + o) - 1)| := by
      by_cases h1 : toBits T.t (f + o) = 1
      · left; rw [h1, sub_self, toBits_zero]
      · right
        have g := gap_one T.t ht s3.hasBits (toBits_nonneg _ (by linarith)) h1
        have hp : (2 : ℝ) ^ (-(T.t : Int)) = ((2 : ℝ) ^ T.t)⁻¹ := by rw [zpow_neg, zpow_natCast]
        have lo : (1 : ℝ) / 2 ^ 60 ≤ ((2 : ℝ) ^ T.t)⁻¹ := by
          rw [inv_eq_one_div]
          exact one_div_le_one_div_of_le (by positivity) (pow_le_pow_right₀ one_le_two hw.2.2)
        refine lo.trans ?_
        generalize toBits T.t (f + o) - 1 = z at g ⊢
        rw [← hp] at g ⊢
        rcases le_or_gt 0 z with hz | hz
        · rw [abs_of_nonneg hz] at g
          have := toBits_mono T.t ht _ _ g
          rw [toBits_two_pow T.t ht] at this
          exact this.trans (le_abs_self _)
        · rw [abs_of_neg hz] at g
          have := toBits_mono T.t ht _ _ g
          rw [toBits_two_pow T.t ht, toBits_neg] at this
          exact this.trans (neg_le_abs _)
    rw [combine_fin hT ht F O D (ordinary_moderate m1) (ordinary_moderate m2) (ordinary_moderate m3), prod_ordinary hT (by rwa [abs_of_nonneg f0]) m1, prod_ordinary hT (by rwa [abs_of_nonneg o0]) m2, prod_ordinary hT hd m3]
    rfl

/-- one step of an accumulation -/
theorem accumulate (hT : T = .single ∨ T = .double) (ht : 1 ≤ T.t) {s w : ℝ} (hs : InFormat T s) (hw : InFormat T w) (s0 : 0 ≤ s) (w0 : 0 ≤ w) (hb : toBits T.t (s + w) ≤ 2 ^ 60) :
    T.add (.fin s) (.fin w) = .fin (toBits T.t (s + w)) ∧ InFormat T (toBits T.t (s + w)) ∧ s ≤ toBits T.t (s + w) ∧ w ≤ toBits T.t (s + w) := by
  have m1 : s ≤ toBits T.t (s + w) := by
    have := toBits_mono T.t ht s (s + w) (by linarith)
    rwa [hs.toBits ht] at this
  have m2 : w ≤ toBits T.t (s + w) := by
    have := toBits_mono T.t ht w (s + w) (by linarith)
    rwa [hw.toBits ht] at this
  obtain ⟨h1, _, h3⟩ := sum_fin hT ht (k := 60) (by norm_num) (by rw [abs_of_nonneg s0]; exact m1.trans hb) (by rw [abs_of_nonneg w0]; exact m2.trans hb) hs hw
  exact ⟨h1, h3, m1, m2⟩

theorem run_fin (hT : T = .single ∨ T = .double) (ht : 1 ≤ T.t) (h : List Weights.Update) (hw : ∀ op ∈ h, InFormat T op.weight ∧ 0 ≤ op.weight)
    (hf : (Weights.run (ieee ℝ T.t ht) h).free ≤ 2 ^ 60) (ho : ∀ s, (Weights.run (ieee ℝ T.t ht) h).occupied = some s → s ≤ 2 ^ 60) :
    run T (h.map updateFl) = ⟨.fin (Weights.run (ieee ℝ T.t ht) h).free, (Weights.run (ieee ℝ T.t ht) h).occupied.map .fin⟩ ∧
    InFormat T (Weights.run (ieee ℝ T.t ht) h).free ∧ 0 ≤ (Weights.run (ieee ℝ T.t ht) h).free ∧
    (∀ s, (Weights.run (ieee ℝ T.t ht) h).occupied = some s → InFormat T s ∧ 0 ≤ s) ∧
    ((∀ op ∈ h, op.weight = 0 ∨ 1 / 2 ^ 60 ≤ op.weight) → ((Weights.run (ieee ℝ T.t ht) h).free = 0 ∨ 1 / 2 ^ 60 ≤ (Weights.run (ieee ℝ T.t ht) h).free) ∧
      ∀ s, (Weights.run (ieee ℝ T.t ht) h).occupied = some s → s = 0 ∨ 1 / 2 ^ 60 ≤ s) := by
  have zero : InFormat T (0 : ℝ) := ⟨⟨0, T.emin + 1 - T.t, by simp, le_rfl, by simp⟩, by simpa using zpow_pos (two_pos (α := ℝ)) T.emax⟩
  have keep : ∀ {s w : ℝ}, 0 ≤ s → (s = 0 ∨ 1 / 2 ^ 60 ≤ s) → (w = 0 ∨ 1 / 2 ^ 60 ≤ w) → s ≤ toBits T.t (s + w) → w ≤ toBits T.t (s + w) → toBits T.t (s + w) = 0 ∨ 1 / 2 ^ 60 ≤ toBits T.t (s + w) := by
    intro s w h0 hs hw m1 m2
    rcases hs with rfl | hs
    · rcases hw with rfl | hw
      · left; rw [add_zero, toBits_zero]
      · exact Or.inr (hw.trans m2)
    · exact Or.inr (hs.trans m1)
  induction h using List.reverseRecOn with
  | nil =>
    refine ⟨rfl, zero, le_rfl, fun s hs => ?_, fun _ => ⟨Or.inl rfl, fun s hs => ?_⟩⟩ <;> cases hs
  | append_singleton h op ih =>
    have hop := hw op (by simp)
    have hw' : ∀ op ∈ h, InFormat T op.weight ∧ 0 ≤ op.weight := fun o ho => hw o (by simp [ho])
    have er : run T ((h ++ [op]).map updateFl) = step T (run T (h.map updateFl)) (updateFl op) := by
      unfold run; rw [List.map_append, List.foldl_append]; rfl
    have eR : Weights.run (ieee ℝ T.t ht) (h ++ [op]) = Weights.step (ieee ℝ T.t ht) (Weights.run (ieee ℝ T.t ht) h) op := Weights.run_append _ _ _
    have hi : ∀ x : ℝ, (ieee ℝ T.t ht).rnd ((ieee ℝ T.t ht).rnd x) = (ieee ℝ T.t ht).rnd x := fun x => toBits_of_hasBits T.t ht (C77_ieee T.t ht x).1
    obtain ⟨⟨k1, k2⟩, k3⟩ := Weights.run_ok (ieee ℝ T.t ht) hi h fun o ho => (hw' o ho).2
    rw [eR] at hf ho ⊢
    rw [er]
    cases op with
    | free w =>
      have hb : toBits T.t ((Weights.run (ieee ℝ T.t ht) h).free + w) ≤ 2 ^ 60 := hf
      have le : (Weights.run (ieee ℝ T.t ht) h).free ≤ toBits T.t ((Weights.run (ieee ℝ T.t ht) h).free + w) := by
        have := toBits_mono T.t ht (Weights.run (ieee ℝ T.t ht) h).free ((Weights.run (ieee ℝ T.t ht) h).free + w) (by have := hop.2; change 0 ≤ w at this; linarith)
        rwa [show toBits T.t (Weights.run (ieee ℝ T.t ht) h).free = _ from k1] at this
      obtain ⟨i1, i2, i3, i4, i5⟩ := ih hw' (le.trans hb) ho
      obtain ⟨c1, c2, c3, c4⟩ := accumulate hT ht i2 hop.1 i3 hop.2 hb
      refine ⟨?_, c2, i3.trans c3, i4, fun hh => ?_⟩
      · rw [i1]
        show (⟨T.add _ (.fin w), _⟩ : WeightsF) = ⟨.fin (toBits T.t _), _⟩
        rw [show T.add (.fin (Weights.run (ieee ℝ T.t ht) h).free) (.fin w) = _ from c1]
        rfl
      · obtain ⟨j1, j2⟩ := i5 fun o ho => hh o (by simp [ho])
        exact ⟨keep i3 j1 (hh (.free w) (by simp)) c3 c4, j2⟩
    | hit w =>
      cases hc : (Weights.run (ieee ℝ T.t ht) h).occupied with
      | none =>
        have e2 : (Weights.step (ieee ℝ T.t ht) (Weights.run (ieee ℝ T.t ht) h) (.hit w)).occupied = some (toBits T.t (0 + w)) := by
          show (Weights.updateOccupied _ w _).occupied = _
          unfold Weights.updateOccupied
          rw [hc]; rfl
        have hb := ho _ e2
        obtain ⟨i1, i2, i3, i4, i5⟩ := ih hw' hf (fun s hs => by rw [hc] at hs; cases hs)
        obtain ⟨c1, c2, c3, c4⟩ := accumulate hT ht zero hop.1 le_rfl hop.2 hb
        refine ⟨?_, i2, i3, fun s hs => ?_, fun hh => ?_⟩
        · rw [e2, i1, hc]
          show (⟨_, some (T.add (.fin 0) (.fin w))⟩ : WeightsF) = ⟨_, some (.fin (toBits T.t (0 + w)))⟩
          rw [show T.add (.fin (0 : ℝ)) (.fin w) = _ from c1]
          rfl
        · rw [e2, Option.some.injEq] at hs
          rw [← hs]
          exact ⟨c2, c3⟩
        · obtain ⟨j1, j2⟩ := i5 fun o ho => hh o (by simp [ho])
          refine ⟨j1, fun s hs => ?_⟩
          rw [e2, Option.some.injEq] at hs
          rw [← hs]
          exact keep le_rfl (Or.inl rfl) (hh (.hit w) (by simp)) c3 c4
      | some s0 =>
        have e2 : (Weights.step (ieee ℝ T.t ht) (Weights.run (ieee ℝ T.t ht) h) (.hit w)).occupied = some (toBits T.t (s0 + w)) := by
          show (Weights.updateOccupied _ w _).occupied = _
          unfold Weights.updateOccupied
          rw [hc]; rfl
        have hb := ho _ e2
        obtain ⟨l1, l2⟩ := k3 s0 hc
        have le : s0 ≤ toBits T.t (s0 + w) := by
          have := toBits_mono T.t ht s0 (s0 + w) (by have := hop.2; change 0 ≤ w at this; linarith)
          rwa [show toBits T.t s0 = _ from l1] at this
        obtain ⟨i1, i2, i3, i4, i5⟩ := ih hw' hf (fun s hs => by rw [hc, Option.some.injEq] at hs; rw [← hs]; exact le.trans hb)
        obtain ⟨n1, n2⟩ := i4 s0 hc
        obtain ⟨c1, c2, c3, c4⟩ := accumulate hT ht n1 hop.1 n2 hop.2 hb
        refine ⟨?_, i2, i3, fun s hs => ?_, fun hh => ?_⟩
        · rw [e2, i1, hc]
          show (⟨_, some (T.add (.fin s0) (.fin w))⟩ : WeightsF) = ⟨_, some (.fin (toBits T.t (s0 + w)))⟩
          rw [show T.add (.fin s0) (.fin w) = _ from c1]
          rfl
        · rw [e2, Option.some.injEq] at hs
          rw [← hs]
          exact ⟨c2, n2.trans c3⟩
        · obtain ⟨j1, j2⟩ := i5 fun o ho => hh o (by simp [ho])
          refine ⟨j1, fun s hs => ?_⟩
          rw [e2, Option.some.injEq] at hs
          rw [← hs]
          exact keep n2 (j2 s0 hc) (hh (.hit w) (by simp)) c3 c4

end WeightsF

end Ndt
