import Verif.Model.MonoRasterFormat
import Verif.Spec.MonoRasterFormat
import Verif.Proofs.RasterFormat
import Verif.Props.RasterMore

/-! Lemmas for C121: the conversion of a single-resolution map in `float` and `double`. -/

namespace Ndt
open Spec

section
variable {K : Type} [Field K] [LinearOrder K] [IsStrictOrderedRing K] [FloorRing K] {T : Format}

theorem bits24 (hT : T = .single ∨ T = .double) : 2 ^ 24 ≤ 2 ^ T.t := by rcases hT with rfl | rfl <;> decide

theorem unit24 (hT : T = .single ∨ T = .double) : (0 : K) < ((2 : K) ^ T.t)⁻¹ ∧ ((2 : K) ^ T.t)⁻¹ ≤ 1 / 16777216 := by
  refine ⟨by positivity, ?_⟩
  have : ((2 ^ 24 : Nat) : K) ≤ ((2 ^ T.t : Nat) : K) := by exact_mod_cast bits24 hT
  push_cast at this
  rw [inv_eq_one_div]
  exact one_div_le_one_div_of_le (by norm_num) (le_trans (by norm_num) this)

/-- a count converted to the scalar type -/
theorem cellCount_round (hT : T = .single ∨ T = .double) {n : Nat} (hn : n ≤ 4194304) : T.round (n : K) = .fin (n : K) ∧ |(n : K)| ≤ (2 : K) ^ (22 : Int) ∧ ((n : K) = 0 ∨ 1 ≤ |(n : K)|) := by
  have hn' : (n : K) ≤ (2 : K) ^ (22 : Int) := by
    have : (n : K) ≤ ((4194304 : Nat) : K) := by exact_mod_cast hn
    rw [show (22 : Int) = ((22 : Nat) : Int) from rfl, zpow_natCast]
    norm_num at this ⊢; exact this
  have habs : |(n : K)| = n := abs_of_nonneg (Nat.cast_nonneg n)
  have h01 : (n : K) = 0 ∨ 1 ≤ |(n : K)| := by
    rw [habs]
    rcases Nat.eq_zero_or_pos n with h | h
    · left; exact_mod_cast h
    · right; exact_mod_cast h
  have hw : T.emin ≤ 22 ∧ (22 : Int) < T.emax ∧ T.emin ≤ 0 := by rcases hT with rfl | rfl <;> decide
  refine ⟨?_, by rw [habs]; exact hn', h01⟩
  have := (round_normal hT hw.1 hw.2.1 (h01.imp id fun h => (zpow_le_one_of_nonpos₀ one_le_two hw.2.2).trans h) (by rw [habs]; exact hn')).1
  rw [this, toBits_small]
  have := bits24 hT
  omega

theorem countPos_fin (hT : T = .single ∨ T = .double) {b : K} (b1 : (2 : K) ^ (-30 : Int) ≤ b) (b2 : b ≤ (2 : K) ^ (30 : Int)) {n : Nat} (hn : n ≤ 4194304) :
    T.mul (T.round (n : K)) (.fin b) = .fin (toBits T.t (n * b)) ∧ |toBits T.t (n * b)| ≤ (2 : K) ^ (52 : Int) := by
  obtain ⟨e1, e2, e3⟩ := cellCount_round (K := K) hT hn
  have hw : T.emin ≤ 22 + 30 ∧ (22 : Int) + 30 < T.emax ∧ T.emin ≤ -30 := by rcases hT with rfl | rfl <;> decide
  have hb : 0 < b := lt_of_lt_of_le (zpow_pos two_pos _) b1
  have hmem := mulK hT hw.1 hw.2.1 e2 (by rw [abs_of_pos hb]; exact b2) e3 (by rw [abs_of_pos hb]; exact (zpow_le_zpow_right₀ one_le_two hw.2.2).trans b1)
  rw [e1]
  exact ⟨hmem.1, hmem.2.1⟩

/-- product and quotient of ordinary numbers are rounded to significant bits only -/
theorem roundedRatio_fin (hT : T = .single ∨ T = .double) {a b : K} (a1 : (2 : K) ^ (-30 : Int) ≤ a) (a2 : a ≤ (2 : K) ^ (30 : Int)) (b1 : (2 : K) ^ (-30 : Int) ≤ b) (b2 : b ≤ (2 : K) ^ (30 : Int)) {n : Nat} (hn : n ≤ 4194304) :
    T.div (T.mul (T.round (n : K)) (.fin a)) (.fin b) = .fin (roundedRatio T.t (n : K) a b) ∧ T.div (T.mul (T.round (n : K)) (.fin a)) (.fin (-b)) = .fin (-roundedRatio T.t (n : K) a b) := by
  obtain ⟨ht, _⟩ := scalar_facts hT
  obtain ⟨e1, e2⟩ := countPos_fin hT a1 a2 hn
  have ha : 0 < a := lt_of_lt_of_le (zpow_pos two_pos _) a1
  have hb : 0 < b := lt_of_lt_of_le (zpow_pos two_pos _) b1
  have hw : T.emin ≤ 82 ∧ (82 : Int) < T.emax ∧ T.emin ≤ -61 := by rcases hT with rfl | rfl <;> decide
  rw [e1]
  have hx0 : 0 ≤ toBits T.t ((n : K) * a) := toBits_nonneg T.t (mul_nonneg (Nat.cast_nonneg n) ha.le)
  have h0 : toBits T.t ((n : K) * a) / b = 0 ∨ (2 : K) ^ T.emin ≤ |toBits T.t ((n : K) * a) / b| := by
    rcases Nat.eq_zero_or_pos n with h | h
    · left; rw [h, Nat.cast_zero, zero_mul, toBits_zero, zero_div]
    · right
      rw [abs_of_nonneg (div_nonneg hx0 hb.le), le_div_iff₀ hb]
      have h1 : (2 : K) ^ (-30 : Int) ≤ (n : K) * a := by
        have : (1 : K) ≤ n := by exact_mod_cast h
        nlinarith
      have h2 := toBits_mono T.t ht _ _ h1
      rw [toBits_two_pow T.t ht] at h2
      refine le_trans ?_ h2
      calc (2 : K) ^ T.emin * b ≤ (2 : K) ^ (-61 : Int) * (2 : K) ^ (30 : Int) := mul_le_mul (zpow_le_zpow_right₀ one_le_two hw.2.2) b2 hb.le (zpow_pos two_pos _).le
        _ = (2 : K) ^ (-31 : Int) := by rw [← zpow_add₀ two_ne_zero]; rfl
        _ ≤ _ := zpow_le_zpow_right₀ one_le_two (by norm_num)
  have h1 : |toBits T.t ((n : K) * a) / b| ≤ (2 : K) ^ (82 : Int) := by
    rw [abs_div, abs_of_pos hb, div_le_iff₀ hb]
    refine e2.trans ?_
    calc (2 : K) ^ (52 : Int) = (2 : K) ^ (82 : Int) * (2 : K) ^ (-30 : Int) := by rw [← zpow_add₀ two_ne_zero]; rfl
      _ ≤ _ := mul_le_mul_of_nonneg_left b1 (zpow_pos two_pos _).le
  constructor
  · show T.conv (Fl.div _ _) = _
    rw [Fl.div_fin hb.ne']
    exact (round_normal hT hw.1 hw.2.1 h0 h1).1
  · show T.conv (Fl.div _ _) = _
    rw [Fl.div_fin (neg_ne_zero.2 hb.ne'), div_neg]
    have := (round_normal hT (x := -(toBits T.t ((n : K) * a) / b)) hw.1 hw.2.1 (by rw [neg_eq_zero, abs_neg]; exact h0) (by rw [abs_neg]; exact h1)).1
    rw [toBits_neg] at this
    exact this

theorem roundedRatio_mono (t : Nat) (ht : 1 ≤ t) {a b : K} (ha : 0 < a) (hb : 0 < b) {x y : K} (h : x ≤ y) : roundedRatio t x a b ≤ roundedRatio t y a b :=
  toBits_mono t ht _ _ (div_le_div_of_nonneg_right (toBits_mono t ht _ _ (mul_le_mul_of_nonneg_right h ha.le)) hb.le)

theorem roundedRatio_nonneg (t : Nat) {a b : K} (ha : 0 < a) (hb : 0 < b) (n : Nat) : 0 ≤ roundedRatio t (n : K) a b :=
  toBits_nonneg t (div_nonneg (toBits_nonneg t (mul_nonneg (Nat.cast_nonneg n) ha.le)) hb.le)

theorem roundedRatio_pos (t : Nat) (ht : 1 ≤ t) {a b : K} (ha : 0 < a) (hb : 0 < b) {n : Nat} (hn : 0 < n) : 0 < roundedRatio t (n : K) a b :=
  Format.toBits_pos t ht (div_pos (Format.toBits_pos t ht (mul_pos (Nat.cast_pos.2 hn) ha)) hb)

/-- both roundings together -/
theorem roundedRatio_bounds (t : Nat) {a b : K} (ha : 0 < a) (hb : 0 < b) (hu : ((2 : K) ^ t)⁻¹ ≤ 1) {x : K} (hx : 0 ≤ x) :
    x * a / b * (1 - ((2 : K) ^ t)⁻¹) ^ 2 ≤ roundedRatio t x a b ∧ roundedRatio t x a b ≤ x * a / b * (1 + ((2 : K) ^ t)⁻¹) ^ 2 := by
  have hu0 : (0 : K) < ((2 : K) ^ t)⁻¹ := by positivity
  have h1 := abs_le.1 (toBits_err t (x * a))
  have h2 := abs_le.1 (toBits_err t (toBits t (x * a) / b))
  have p1 : 0 ≤ x * a := mul_nonneg hx ha.le
  have p2 : 0 ≤ toBits t (x * a) / b := div_nonneg (toBits_nonneg t p1) hb.le
  rw [abs_of_nonneg p1] at h1
  rw [abs_of_nonneg p2] at h2
  unfold roundedRatio
  generalize ((2 : K) ^ t)⁻¹ = u at *
  have q1 : x * a * (1 - u) / b ≤ toBits t (x * a) / b := div_le_div_of_nonneg_right (by linarith [h1.1]) hb.le
  have q2 : toBits t (x * a) / b ≤ x * a * (1 + u) / b := div_le_div_of_nonneg_right (by linarith [h1.2]) hb.le
  constructor
  · have : x * a * (1 - u) / b * (1 - u) ≤ toBits t (x * a) / b * (1 - u) := mul_le_mul_of_nonneg_right q1 (by linarith)
    have e : x * a * (1 - u) / b * (1 - u) = x * a / b * (1 - u) ^ 2 := by ring
    linarith [h2.1]
  · have : toBits t (x * a) / b * (1 + u) ≤ x * a * (1 + u) / b * (1 + u) := mul_le_mul_of_nonneg_right q2 (by linarith)
    have e : x * a * (1 + u) / b * (1 + u) = x * a / b * (1 + u) ^ 2 := by ring
    linarith [h2.2]

/-- less than half a cell is lost or gained -/
theorem roundedRatio_near (hT : T = .single ∨ T = .double) {a b : K} (ha : 0 < a) (hb : 0 < b) {x : K} (hx : 0 ≤ x) (h : x * a / b ≤ 2097152) :
    x * a / b - 1 / 2 < roundedRatio T.t x a b ∧ roundedRatio T.t x a b < x * a / b + 1 / 2 := by
  obtain ⟨u0, u1⟩ := unit24 (K := K) hT
  obtain ⟨l, u⟩ := roundedRatio_bounds T.t ha hb (u1.trans (by norm_num)) hx
  have hq : 0 ≤ x * a / b := div_nonneg (mul_nonneg hx ha.le) hb.le
  generalize ((2 : K) ^ T.t)⁻¹ = w at *
  generalize x * a / b = q at *
  have hqw : q * w ≤ 1 / 8 := by
    have := mul_le_mul h u1 u0.le (by norm_num)
    linarith
  have hqw0 : 0 ≤ q * w := mul_nonneg hq u0.le
  have hqww : q * w * w ≤ 1 / 8 := by
    have := mul_le_mul hqw (u1.trans (by norm_num : (1 : K) / 16777216 ≤ 1)) u0.le (by norm_num)
    linarith
  have hqww0 : 0 ≤ q * w * w := mul_nonneg hqw0 u0.le
  constructor <;> nlinarith

theorem monoExtentF_eq (hT : T = .single ∨ T = .double) {r s : K} (r1 : (2 : K) ^ (-30 : Int) ≤ r) (r2 : r ≤ (2 : K) ^ (30 : Int)) (s1 : (2 : K) ^ (-30 : Int) ≤ s) (s2 : s ≤ (2 : K) ^ (30 : Int))
    {n : Nat} (hn : n ≤ 1048576) (hw : (n : K) * r ≤ 1048576 * s) :
    monoExtentF T r (.fin s) n = some (columns T.t n r s).toNat ∧ 0 ≤ columns T.t n r s ∧ columns T.t n r s ≤ 1048577 := by
  have hr : 0 < r := lt_of_lt_of_le (zpow_pos two_pos _) r1
  have hs : 0 < s := lt_of_lt_of_le (zpow_pos two_pos _) s1
  have c0 : 0 ≤ columns T.t n r s := Int.ceil_nonneg (roundedRatio_nonneg T.t hr hs n)
  have c1 : columns T.t n r s ≤ 1048577 := by
    have hq : (n : K) * r / s ≤ 1048576 := (div_le_iff₀ hs).2 hw
    have := (roundedRatio_near hT hr hs (Nat.cast_nonneg (α := K) n) (hq.trans (by norm_num))).2
    refine Int.ceil_le.2 ?_
    push_cast
    linarith
  refine ⟨?_, c0, c1⟩
  unfold monoExtentF
  rw [(roundedRatio_fin hT r1 r2 s1 s2 (by omega)).1]
  show (if _ then _ else _) = _
  exact if_pos ⟨c0, lt_of_le_of_lt c1 (by norm_num)⟩

theorem monoIndexF_eq (hT : T = .single ∨ T = .double) {r s : K} (r1 : (2 : K) ^ (-30 : Int) ≤ r) (r2 : r ≤ (2 : K) ^ (30 : Int)) (s1 : (2 : K) ^ (-30 : Int) ≤ s) (s2 : s ≤ (2 : K) ^ (30 : Int))
    {j : Nat} (hj : j ≤ 1048576) {lo : Int} (hlo : |lo| ≤ 1073741824) (hx : sourceColumn T.t r s j ≤ 1073741823) :
    monoIndexF T r (.fin s) lo j = some (lo + sourceColumn T.t r s j) ∧ 0 ≤ sourceColumn T.t r s j := by
  have hr : 0 < r := lt_of_lt_of_le (zpow_pos two_pos _) r1
  have hs : 0 < s := lt_of_lt_of_le (zpow_pos two_pos _) s1
  have h0 := roundedRatio_nonneg T.t hs hr j
  have c0 : 0 ≤ sourceColumn T.t r s j := Int.floor_nonneg.2 h0
  have hl := abs_le.1 hlo
  refine ⟨?_, c0⟩
  unfold monoIndexF monoPosF
  rw [(roundedRatio_fin hT s1 s2 r1 r2 (by omega)).1]
  have e : flTrunc (.fin (roundedRatio T.t (j : K) s r)) = some (sourceColumn T.t r s j) := by
    show toInt (if _ then _ else _) = _
    rw [if_neg (not_lt.2 h0)]
    exact if_pos ⟨le_trans (by norm_num) c0, lt_of_le_of_lt hx (by norm_num)⟩
  rw [e]
  exact if_pos ⟨by omega, by omega⟩

/-- the last column reads at most one column outside of the source -/
theorem lastColumn_le (hT : T = .single ∨ T = .double) {r s : K} (hr : 0 < r) (hs : 0 < s) {n : Nat} (hn : n ≤ 1048576) {j : Nat} (hj : (j : Int) < columns T.t n r s) :
    sourceColumn T.t r s j ≤ n := by
  obtain ⟨u0, u1⟩ := unit24 (K := K) hT
  have hu1 : ((2 : K) ^ T.t)⁻¹ ≤ 1 := u1.trans (by norm_num)
  have h1 : ((j : Int) : K) < roundedRatio T.t (n : K) r s := Int.lt_ceil.1 hj
  rw [Int.cast_natCast] at h1
  have h2 := (roundedRatio_bounds T.t hr hs hu1 (Nat.cast_nonneg (α := K) n)).2
  have h3 := (roundedRatio_bounds T.t hs hr hu1 (Nat.cast_nonneg (α := K) j)).2
  have hn' : (n : K) ≤ 1048576 := by exact_mod_cast hn
  generalize ((2 : K) ^ T.t)⁻¹ = w at *
  have h4 : (j : K) * s / r ≤ n * (1 + w) ^ 2 := by
    rw [div_le_iff₀ hr]
    have : (j : K) ≤ n * r / s * (1 + w) ^ 2 := (h1.trans_le h2).le
    calc (j : K) * s ≤ n * r / s * (1 + w) ^ 2 * s := mul_le_mul_of_nonneg_right this hs.le
      _ = n * (1 + w) ^ 2 * r := by field_simp
  have h5 : roundedRatio T.t (j : K) s r ≤ n * (1 + w) ^ 2 * (1 + w) ^ 2 := h3.trans (mul_le_mul_of_nonneg_right h4 (by positivity))
  have hw4 : (1 + w) ^ 2 * (1 + w) ^ 2 ≤ 1 + 1 / 2097152 := by
    have a1 : (1 + w) ^ 2 ≤ 1 + 3 * w := by nlinarith
    have a2 : (1 + w) ^ 2 * (1 + w) ^ 2 ≤ (1 + 3 * w) * (1 + 3 * w) := mul_le_mul a1 a1 (by positivity) (by linarith)
    nlinarith
  have h6 : roundedRatio T.t (j : K) s r < n + 1 := by
    have : (n : K) * ((1 + w) ^ 2 * (1 + w) ^ 2) ≤ n * (1 + 1 / 2097152) := mul_le_mul_of_nonneg_left hw4 (Nat.cast_nonneg n)
    nlinarith
  have : sourceColumn T.t r s j < (n : Int) + 1 := by
    refine Int.floor_lt.2 ?_
    push_cast; exact h6
  omega

theorem sourceColumn_mono (t : Nat) (ht : 1 ≤ t) {r s : K} (hr : 0 < r) (hs : 0 < s) {i j : Nat} (h : i ≤ j) : sourceColumn t r s i ≤ sourceColumn t r s j :=
  Int.floor_le_floor (roundedRatio_mono t ht hs hr (by exact_mod_cast h))

end
end Ndt
