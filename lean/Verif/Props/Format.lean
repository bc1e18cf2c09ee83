import Verif.Proofs.FormatGrid
import Verif.Props.RoundingOcc

/-! Property theorem C96: quantisation of points in `float` and `double`, including subnormal numbers, underflow, overflow, infinities and NaN. -/

namespace Ndt
open St

section
variable {K : Type} [Field K] [LinearOrder K] [IsStrictOrderedRing K] [FloorRing K] {d : Nat}

/-! ### The rounding of the model is that of the format -/

theorem Format.nearest_abs (F : Format) (ht : 1 ≤ F.t) (x : K) : |F.nearest x| = F.nearest |x| := by
  have pos : ∀ x : K, 0 ≤ x → 0 ≤ F.nearest x := by
    intro x hx
    rcases le_or_gt ((2 : K) ^ F.emin) x with h | h
    · rw [F.nearest_normal (by rwa [abs_of_nonneg hx])]; exact toBits_nonneg F.t hx
    · exact (F.nearest_small_bounds ht hx h).1
  rcases le_or_gt 0 x with h | h
  · rw [abs_of_nonneg h, abs_of_nonneg (pos x h)]
  · have := pos (-x) (by linarith)
    rw [abs_of_neg h]
    rw [F.nearest_neg] at this ⊢
    rw [abs_of_nonpos (by linarith)]

omit [IsStrictOrderedRing K] [FloorRing K] in
theorem Spec.InFormat.hasBits {F : Format} {z : K} (h : Spec.InFormat F z) : Spec.HasBits F.t z := by
  obtain ⟨⟨m, e, h1, _, h3⟩, _⟩ := h
  exact ⟨m, e, h1, h3⟩

/-- a number of the format is a multiple of the smallest one -/
theorem Spec.InFormat.multiple {F : Format} {z : K} (h : Spec.InFormat F z) : ∃ k : Int, z = (k : K) * (2 : K) ^ (F.emin + 1 - (F.t : Int)) := by
  obtain ⟨⟨m, e, h1, h2, h3⟩, _⟩ := h
  refine ⟨m * 2 ^ (e - (F.emin + 1 - F.t)).toNat, ?_⟩
  rw [h3]; push_cast
  rw [mul_assoc, ← zpow_natCast, ← zpow_add₀ two_ne_zero]
  congr 2; omega

theorem Spec.InFormat.toBits {F : Format} (ht : 1 ≤ F.t) {z : K} (h : Spec.InFormat F z) : toBits F.t z = z := by
  have := (C77_ieee F.t ht z).2.1 z h.hasBits
  rw [sub_self, abs_zero] at this
  exact sub_eq_zero.1 (abs_eq_zero.1 (le_antisymm this (abs_nonneg _)))

/-- a number of the format is zero or at least the smallest one -/
theorem Spec.InFormat.smallest {F : Format} {z : K} (h : Spec.InFormat F z) : z = 0 ∨ (2 : K) ^ (F.emin + 1 - (F.t : Int)) ≤ |z| := by
  obtain ⟨k, hk⟩ := h.multiple
  have hq : (0 : K) < (2 : K) ^ (F.emin + 1 - (F.t : Int)) := zpow_pos two_pos _
  by_cases h0 : k = 0
  · left; rw [hk, h0, Int.cast_zero, zero_mul]
  · right
    rw [hk, abs_mul, abs_of_pos hq]
    have : (1 : K) ≤ |(k : K)| := by exact_mod_cast Int.one_le_abs h0
    nlinarith

theorem Format.nearest_form (F : Format) (ht : 1 ≤ F.t) (x : K) : ∃ m e : Int, |m| < 2 ^ F.t ∧ F.emin + 1 - F.t ≤ e ∧ F.nearest x = (m : K) * (2 : K) ^ e := by
  have pos : ∀ x : K, 0 < x → ∃ m e : Int, |m| < 2 ^ F.t ∧ F.emin + 1 - F.t ≤ e ∧ F.nearest x = (m : K) * (2 : K) ^ e := by
    intro x hx
    have hl := F.last_pos x
    have hb : x / F.last x ≤ ((2 ^ F.t : Int) : K) := by
      rw [div_le_iff₀ hl]
      refine (log_bounds hx).2.le.trans ?_
      unfold Format.last
      push_cast
      rw [← zpow_natCast, ← zpow_add₀ two_ne_zero, abs_of_pos hx]
      exact zpow_le_zpow_right₀ one_le_two (by have := le_max_left (Int.log 2 x) F.emin; omega)
    have h2 := nearestEven_mono hb
    rw [nearestEven_int] at h2
    have h0 : 0 ≤ nearestEven (x / F.last x) := by
      have h1 := (nearestEven_bounds (x / F.last x)).1
      have h3 : 0 ≤ ⌊x / F.last x⌋ := Int.floor_nonneg.2 (div_nonneg hx.le hl.le)
      omega
    have e : F.nearest x = (nearestEven (x / F.last x) : K) * F.last x := by unfold Format.nearest; rw [if_neg (not_lt.2 hx.le)]
    have hmax := le_max_right (Int.log 2 |x|) F.emin
    rcases h2.lt_or_eq with h | h
    · exact ⟨_, _, by rw [abs_of_nonneg h0]; exact h, by omega, e⟩
    · refine ⟨1, max (Int.log 2 |x|) F.emin + 1, by rw [abs_one]; exact one_lt_pow₀ (by norm_num) (by omega), by omega, ?_⟩
      rw [e, h]
      unfold Format.last
      push_cast
      rw [one_mul, ← zpow_natCast, ← zpow_add₀ two_ne_zero]
      congr 1; omega
  rcases lt_trichotomy x 0 with h | rfl | h
  · obtain ⟨m, e, h1, h2, h3⟩ := pos (-x) (by linarith)
    refine ⟨-m, e, by rwa [abs_neg], h2, ?_⟩
    rw [F.nearest_neg] at h3
    push_cast
    rw [neg_mul, ← h3, neg_neg]
  · exact ⟨0, F.emin + 1 - F.t, by rw [abs_zero]; positivity, le_refl _, by rw [F.nearest_zero, Int.cast_zero, zero_mul]⟩
  · exact pos x h

/-- the numbers of a format, with the range of the exponent instead of a bound on the number -/
theorem inFormat_iff (F : Format) (ht : F.emin + 1 ≤ F.emax) (z : K) :
    Spec.InFormat F z ↔ ∃ m e : Int, |m| < 2 ^ F.t ∧ F.emin + 1 - F.t ≤ e ∧ e ≤ F.emax - F.t ∧ z = (m : K) * (2 : K) ^ e := by
  have h2 : (0 : K) < 2 := two_pos
  constructor
  · rintro ⟨⟨m, e, hm, he, rfl⟩, hz⟩
    rcases le_or_gt e (F.emax - F.t) with h | h
    · exact ⟨m, e, hm, he, h, rfl⟩
    · obtain ⟨k, hk⟩ := Int.eq_ofNat_of_zero_le (show 0 ≤ e - (F.emax - F.t) by omega)
      have e1 : (m : K) * (2 : K) ^ e = ((m * 2 ^ k : Int) : K) * (2 : K) ^ (F.emax - F.t) := by
        have : e = (k : Int) + (F.emax - F.t) := by omega
        rw [this, zpow_add₀ h2.ne', zpow_natCast]
        push_cast
        ring
      refine ⟨m * 2 ^ k, F.emax - F.t, ?_, by omega, le_refl _, e1⟩
      rw [e1, abs_mul, abs_of_pos (zpow_pos h2 _)] at hz
      have e2 : (2 : K) ^ F.emax = ((2 ^ F.t : Int) : K) * (2 : K) ^ (F.emax - F.t) := by
        push_cast
        rw [← zpow_natCast, ← zpow_add₀ h2.ne']
        congr 1
        omega
      rw [e2] at hz
      have := lt_of_mul_lt_mul_right hz (zpow_pos h2 _).le
      rw [← Int.cast_abs] at this
      exact_mod_cast this
  · rintro ⟨m, e, hm, he, he', rfl⟩
    refine ⟨⟨m, e, hm, he, rfl⟩, ?_⟩
    rw [abs_mul, abs_of_pos (zpow_pos h2 _)]
    have h1 : |(m : K)| < (2 : K) ^ (F.t : Int) := by
      rw [← Int.cast_abs, zpow_natCast]
      exact_mod_cast hm
    calc |(m : K)| * (2 : K) ^ e < (2 : K) ^ (F.t : Int) * (2 : K) ^ e := mul_lt_mul_of_pos_right h1 (zpow_pos h2 _)
      _ = (2 : K) ^ ((F.t : Int) + e) := (zpow_add₀ h2.ne' _ _).symm
      _ ≤ (2 : K) ^ F.emax := zpow_le_zpow_right₀ one_le_two (by omega)

/-- **C96** (the formats). The finite numbers of `float` and `double` are those of binary32 and binary64 of IEEE 754: 24 and 53 significant bits, exponents of the last bit from -149 to 104 and from -1074 to 971. -/
theorem C96_numbers (z : K) :
    (Spec.InFormat Format.single z ↔ ∃ m e : Int, |m| < 16777216 ∧ -149 ≤ e ∧ e ≤ 104 ∧ z = (m : K) * (2 : K) ^ e) ∧
    (Spec.InFormat Format.double z ↔ ∃ m e : Int, |m| < 9007199254740992 ∧ -1074 ≤ e ∧ e ≤ 971 ∧ z = (m : K) * (2 : K) ^ e) := by
  constructor
  · rw [inFormat_iff _ (by decide)]
    exact Iff.rfl
  · rw [inFormat_iff _ (by decide)]
    exact Iff.rfl

/-- **C96** (the rounding of the model is that of IEEE 754). A finite result is a number of the format, no other number of the format is nearer to the exact result, and if another one is as near then the
last bit of the result is zero, also for subnormal results. -/
theorem C96_ieee (F : Format) (ht : 1 ≤ F.t) (x z : K) (h : F.round x = .fin z) :
    Spec.InFormat F z ∧ (∀ z', Spec.InFormat F z' → |z - x| ≤ |z' - x|) ∧
    ∀ z', Spec.InFormat F z' → z' ≠ z → |z' - x| = |z - x| → ∃ m e : Int, Even m ∧ z = (m : K) * (2 : K) ^ e ∧
      (e = F.emin + 1 - F.t ∧ |x| < (2 : K) ^ F.emin ∨ (2 : K) ^ (e + F.t - 1) ≤ |x| ∧ |x| < (2 : K) ^ (e + F.t)) := by
  unfold Format.round at h
  split at h
  case isFalse => cases h
  rename_i hlt
  cases h
  refine ⟨⟨F.nearest_form ht x, hlt⟩, ?_⟩
  rcases le_or_gt ((2 : K) ^ F.emin) |x| with hn | hn
  · rw [F.nearest_normal hn]
    obtain ⟨_, h2, h3⟩ := C77_ieee F.t ht x
    refine ⟨fun z' hz' => h2 z' hz'.hasBits, fun z' hz' hne heq => ?_⟩
    obtain ⟨m, e, a1, a2, a3, a4⟩ := h3 z' hz'.hasBits hne heq
    exact ⟨m, e, a1, a2, Or.inr ⟨a3, a4⟩⟩
  · have hq : (0 : K) < (2 : K) ^ (F.emin + 1 - (F.t : Int)) := zpow_pos two_pos _
    have key : ∀ x : K, 0 ≤ x → x < (2 : K) ^ F.emin → (∀ k : Int, |F.nearest x - x| ≤ |(k : K) * (2 : K) ^ (F.emin + 1 - (F.t : Int)) - x|) ∧
        ∀ k : Int, (k : K) * (2 : K) ^ (F.emin + 1 - (F.t : Int)) ≠ F.nearest x → |(k : K) * (2 : K) ^ (F.emin + 1 - (F.t : Int)) - x| = |F.nearest x - x| →
          ∃ m : Int, Even m ∧ F.nearest x = (m : K) * (2 : K) ^ (F.emin + 1 - (F.t : Int)) := by
      intro x h0 hx
      have e := F.nearest_small h0 hx
      have hz : ∀ a : K, |a * (2 : K) ^ (F.emin + 1 - (F.t : Int)) - x| = |a - x / (2 : K) ^ (F.emin + 1 - (F.t : Int))| * (2 : K) ^ (F.emin + 1 - (F.t : Int)) := by
        intro a
        conv_rhs => rw [← abs_of_pos hq, ← abs_mul, abs_of_pos hq, sub_mul, div_mul_cancel₀ _ hq.ne']
      refine ⟨fun k => ?_, fun k hne heq => ?_⟩
      · rw [e, hz, hz]
        exact mul_le_mul_of_nonneg_right (nearestEven_nearest _ k) hq.le
      · rw [e, hz, hz] at heq
        exact ⟨_, nearestEven_tie _ k (fun hc => hne (by rw [e, hc])) (mul_right_cancel₀ hq.ne' heq), e⟩
    have hd : ∀ a : K, |-a - -x| = |a - x| := fun a => by rw [← abs_neg]; congr 1; ring
    rcases le_or_gt 0 x with h0 | h0
    · obtain ⟨k1, k2⟩ := key x h0 (by rwa [abs_of_nonneg h0] at hn)
      refine ⟨fun z' hz' => ?_, fun z' hz' hne heq => ?_⟩
      · obtain ⟨k, rfl⟩ := hz'.multiple
        exact k1 k
      · obtain ⟨k, rfl⟩ := hz'.multiple
        obtain ⟨m, a1, a2⟩ := k2 k hne heq
        exact ⟨m, _, a1, a2, Or.inl ⟨rfl, hn⟩⟩
    · obtain ⟨k1, k2⟩ := key (-x) (by linarith) (by rwa [abs_of_neg h0] at hn)
      rw [F.nearest_neg] at k1 k2
      have hneg : ∀ k : Int, ((-k : Int) : K) * (2 : K) ^ (F.emin + 1 - (F.t : Int)) = -((k : K) * (2 : K) ^ (F.emin + 1 - (F.t : Int))) := by
        intro k; push_cast; ring
      refine ⟨fun z' hz' => ?_, fun z' hz' hne heq => ?_⟩
      · obtain ⟨k, rfl⟩ := hz'.multiple
        have := k1 (-k)
        rwa [hneg, hd, hd] at this
      · obtain ⟨k, rfl⟩ := hz'.multiple
        obtain ⟨m, a1, a2⟩ := k2 (-k) (by rw [hneg]; exact fun hc => hne (neg_injective hc)) (by rw [hneg, hd, hd]; exact heq)
        exact ⟨-m, _, a1.neg, by rw [hneg, ← a2, neg_neg], Or.inl ⟨rfl, hn⟩⟩

/-- **C96** (overflow as in IEEE 754). The result is infinite exactly from the middle between the largest finite number and `2^emax` on. -/
theorem C96_overflow (F : Format) (ht : 1 ≤ F.t) (he : F.emin < F.emax) (x : K) (s : Bool) :
    F.round x = .inf s ↔ (2 : K) ^ F.emax - (2 : K) ^ (F.emax - F.t - 1) ≤ |x| ∧ s = decide (x < 0) := by
  have key : ∀ x : K, 0 ≤ x → ((2 : K) ^ F.emax ≤ F.nearest x ↔ (2 : K) ^ F.emax - (2 : K) ^ (F.emax - F.t - 1) ≤ x) := by
    intro x h0
    have hE : (2 : K) ^ F.emax = 2 * (2 : K) ^ (F.emax - 1) := by
      rw [← zpow_one_add₀ two_ne_zero]; congr 1; ring
    have hP : (0 : K) < (2 : K) ^ (F.emax - 1) := zpow_pos two_pos _
    have hS : (2 : K) ^ (F.emax - F.t - 1) ≤ (2 : K) ^ (F.emax - 1) := zpow_le_zpow_right₀ one_le_two (by omega)
    rcases lt_or_ge x ((2 : K) ^ (F.emax - 1)) with h1 | h1
    · have hn : F.nearest x ≤ (2 : K) ^ (F.emax - 1) := by
        rcases le_or_gt ((2 : K) ^ F.emin) x with h | h
        · rw [F.nearest_normal (by rwa [abs_of_nonneg h0])]
          have := toBits_mono F.t ht _ _ h1.le
          rwa [toBits_two_pow F.t ht] at this
        · exact (F.nearest_small_bounds ht h0 h).2.trans (zpow_le_zpow_right₀ one_le_two (by omega))
      exact ⟨fun h => absurd h (not_le.2 (by linarith)), fun h => absurd h (not_le.2 (by linarith))⟩
    · have hnorm : F.nearest x = toBits F.t x :=
        F.nearest_normal (by rw [abs_of_nonneg h0]; exact (zpow_le_zpow_right₀ one_le_two (by omega)).trans h1)
      rcases lt_or_ge x ((2 : K) ^ F.emax) with h2 | h2
      · have hx : 0 < x := by linarith
        have hlog : Int.log 2 |x| = F.emax - 1 := by
          rw [abs_of_pos hx]
          have a1 := (Int.zpow_le_iff_le_log (b := 2) one_lt_two hx (x := F.emax - 1)).1 (by push_cast; exact h1)
          have a2 := (Int.lt_zpow_iff_log_lt (b := 2) one_lt_two hx (x := F.emax)).1 (by push_cast; exact h2)
          omega
        have hl : lastBit F.t x = (2 : K) ^ (F.emax - F.t) := by
          unfold lastBit; rw [hlog]; congr 1; ring
        have hq : (0 : K) < (2 : K) ^ (F.emax - F.t) := zpow_pos two_pos _
        have e1 : (2 : K) ^ F.emax = ((2 ^ F.t : Int) : K) * (2 : K) ^ (F.emax - F.t) := by
          push_cast; rw [← zpow_natCast, ← zpow_add₀ two_ne_zero]; congr 1; ring
        have e2 : (2 : K) ^ (F.emax - F.t - 1) = 1 / 2 * (2 : K) ^ (F.emax - F.t) := by
          rw [zpow_sub₀ two_ne_zero, zpow_one]; ring
        have e3 : x = x / (2 : K) ^ (F.emax - F.t) * (2 : K) ^ (F.emax - F.t) := (div_mul_cancel₀ _ hq.ne').symm
        have e4 : toBits F.t x = (nearestEven (x / (2 : K) ^ (F.emax - F.t)) : K) * (2 : K) ^ (F.emax - F.t) := by
          unfold toBits; rw [if_neg (not_lt.2 hx.le), hl]
        rw [hnorm, e4, e2, e1, ← sub_mul]
        conv_rhs => rw [e3]
        rw [mul_le_mul_iff_left₀ hq, mul_le_mul_iff_left₀ hq]
        have hy : x / (2 : K) ^ (F.emax - F.t) < ((2 ^ F.t : Int) : K) := by rw [div_lt_iff₀ hq, ← e1]; exact h2
        generalize x / (2 : K) ^ (F.emax - F.t) = y at hy ⊢
        constructor
        · intro h
          have := (abs_le.1 (nearestEven_err y)).2
          linarith
        · intro h
          have hf : ⌊y⌋ = 2 ^ F.t - 1 := by
            rw [Int.floor_eq_iff]
            constructor
            · push_cast at h ⊢; linarith
            · push_cast at hy ⊢; linarith
          have hodd : ¬ ((2 : Int) ^ F.t - 1) % 2 = 0 := by
            obtain ⟨n, hn⟩ := Nat.exists_eq_add_of_le ht
            rw [hn, pow_add, pow_one]; omega
          have hn : nearestEven y = 2 ^ F.t := by
            unfold nearestEven
            rw [hf, if_neg, if_neg hodd]
            · split <;> ring
            · push_cast at h ⊢; linarith
          rw [hn]
      · refine ⟨fun _ => ?_, fun _ => ?_⟩
        · have : (0 : K) < (2 : K) ^ (F.emax - F.t - 1) := zpow_pos two_pos _
          linarith
        · rw [hnorm]
          have := toBits_mono F.t ht _ _ h2
          rwa [toBits_two_pow F.t ht] at this
  rw [← key |x| (abs_nonneg x), ← F.nearest_abs ht]
  unfold Format.round
  split
  · rename_i h
    refine ⟨fun hc => ?_, fun hc => absurd hc.1 (not_le.2 h)⟩
    cases hc
  · rename_i h
    constructor
    · intro hc; cases hc; exact ⟨not_lt.1 h, rfl⟩
    · rintro ⟨_, rfl⟩; rfl

/-! ### Bundle indices -/

/-- **C96** (members). For every resolution that is a normal number whose double is one too, and whose inverse is representable (from `2^(emin+1)` to `2^(-emin)`), the members of the map are finite and the ones of C77. -/
theorem C96_members {T : Format} (hT : T = .single ∨ T = .double) (ht : 1 ≤ T.t) (r : K) (h1 : (2 : K) ^ (T.emin + 1) ≤ r) (h2 : r ≤ (2 : K) ^ (-T.emin)) :
    bundleResolutionF T r = .fin (bundleResolutionR (ieeeArith K T.t ht) r) ∧ bundleResolutionInvF T r = .fin (bundleResolutionInvR (ieeeArith K T.t ht) r) := by
  obtain ⟨⟨a, _⟩, b, _⟩ := members_between hT ht r (le_refl _) (le_refl _) h1 h2
  exact ⟨a, b⟩

/-- **C96** (index of a coordinate). The index is the one of C77, where exponents are unbounded, except for negative coordinates so close to zero that their product with the inverse of the resolution underflows: they get index 0. -/
theorem C96_index {T : Format} (hT : T = .single ∨ T = .double) (ht : 1 ≤ T.t) (r : K) (h1 : (2 : K) ^ (T.emin + 1) ≤ r) (h2 : r ≤ (2 : K) ^ (-T.emin)) (x : K) :
    coordIndexF T r (.fin x) = if x < 0 ∧ |x * bundleResolutionInvR (ieeeArith K T.t ht) r| ≤ (2 : K) ^ (T.emin - (T.t : Int)) then some 0 else coordIndexR (ieeeArith K T.t ht) r x := by
  obtain ⟨⟨_, _⟩, b, b1, _⟩ := members_between hT ht r (le_refl _) (le_refl _) h1 h2
  obtain ⟨_, _, f1, f2, _⟩ := scalar_facts hT
  have hpos : 0 < bundleResolutionInvR (ieeeArith K T.t ht) r := lt_of_lt_of_le (zpow_pos two_pos _) b1
  unfold coordIndexF
  rw [b]
  show flToInt (T.round (x * _)) = _
  rw [T.toInt_round ht f1 f2]
  have e : (x * bundleResolutionInvR (ieeeArith K T.t ht) r < 0) ↔ x < 0 := by
    constructor
    · intro h; by_contra hc; exact absurd h (not_lt.2 (mul_nonneg (not_lt.1 hc) hpos.le))
    · intro h; exact mul_neg_of_neg_of_pos h hpos
  simp only [e]
  rfl

/-- **C96** (special values). The index of a NaN or infinite coordinate is undefined, whatever the resolution. -/
theorem C96_special (T : Format) (r : K) (p : Pt (Fl K) d) (i : Fin d) (h : p i = .nan ∨ ∃ s, p i = .inf s) : toBundleIndexF T r p = none := by
  have key : coordIndexF T r (p i) = none := by
    unfold coordIndexF
    generalize bundleResolutionInvF T r = y
    rcases h with h | ⟨s, h⟩
    · rw [h]; rfl
    · rw [h]
      cases y with
      | nan => rfl
      | inf b => rfl
      | fin y =>
        show flToInt (T.conv (if y = 0 then _ else _)) = none
        split <;> rfl
  unfold toBundleIndexF
  rw [if_neg]
  intro hc
  have := hc i
  rw [key] at this
  cases this

theorem toBundleIndexF_eq_some (T : Format) (r : K) (p : Pt (Fl K) d) (b : Idx d) : toBundleIndexF T r p = some b ↔ ∀ i, coordIndexF T r (p i) = some (b i) := by
  unfold toBundleIndexF
  split
  · rename_i h
    rw [Option.some.injEq]
    constructor
    · intro e i
      have := congrFun e i
      obtain ⟨v, hv⟩ := Option.isSome_iff_exists.1 (h i)
      simp only [hv, Option.getD_some] at this ⊢
      rw [this]
    · intro e; funext i; simp only [e i, Option.getD_some]
  · rename_i h
    simp only [reduceCtorEq, false_iff]
    exact fun e => h fun i => by rw [e i]; rfl

/-- **C96** (vanishing resolution). If half the resolution rounds to zero (below the smallest number of the scalar type), no point has a bundle: `bundle_resolution_inv_` is infinite. -/
theorem C96_vanishing (T : Format) (r : K) (h : bundleResolutionF T r = .fin 0) (hd : 0 < d) (p : Pt K d) : finiteIndexF T r p = none := by
  have e : bundleResolutionInvF T r = .inf false := by
    unfold bundleResolutionInvF
    rw [h]
    show T.conv (if (0 : K) = 0 then _ else _) = _
    rw [if_pos rfl]; rfl
  have key : coordIndexF T r (.fin (p ⟨0, hd⟩)) = none := by
    unfold coordIndexF
    rw [e]
    show flToInt (T.conv (if _ then _ else _)) = none
    split <;> rfl
  unfold finiteIndexF toBundleIndexF
  rw [if_neg]
  intro hc
  have := hc ⟨0, hd⟩
  simp only [key] at this
  cases this

/-- no coordinate is so small that the product underflows -/
theorem finiteIndexF_eq {T : Format} (hT : T = .single ∨ T = .double) (ht : 1 ≤ T.t) (r : K) (h1 : (2 : K) ^ (T.emin + 1) ≤ r) (h2 : r ≤ (2 : K) ^ (-T.emin)) (p : Pt K d)
    (hp : ∀ i, p i < 0 → (2 : K) ^ (T.emin - (T.t : Int)) < |p i * bundleResolutionInvR (ieeeArith K T.t ht) r|) :
    finiteIndexF T r p = toBundleIndexR (ieeeArith K T.t ht) r p := by
  have e : ∀ i, coordIndexF T r (.fin (p i)) = coordIndexR (ieeeArith K T.t ht) r (p i) := by
    intro i
    rw [C96_index hT ht r h1 h2, if_neg]
    exact fun hc => absurd hc.2 (not_le.2 (hp i hc.1))
  unfold finiteIndexF toBundleIndexF toBundleIndexR
  simp only [e]

theorem no_underflow {T : Format} (hT : T = .single ∨ T = .double) (ht : 1 ≤ T.t) (r : K) (h1 : (2 : K) ^ (T.emin + 1) ≤ r) {a n : Int} (hn : n ≤ -T.emin) (h2 : r ≤ (2 : K) ^ n)
    (ha : T.emin - T.t < a + 1 - n) {x : K} (hx : (2 : K) ^ a ≤ |x|) : (2 : K) ^ (T.emin - (T.t : Int)) < |x * bundleResolutionInvR (ieeeArith K T.t ht) r| := by
  obtain ⟨_, _, b1, _⟩ := members_between hT ht r (le_refl _) hn h1 h2
  have hp : (0 : K) < (2 : K) ^ (1 - n) := zpow_pos two_pos _
  rw [abs_mul, abs_of_pos (lt_of_lt_of_le hp b1)]
  calc (2 : K) ^ (T.emin - (T.t : Int)) < (2 : K) ^ (a + (1 - n)) := zpow_lt_zpow_right₀ one_lt_two (by omega)
    _ = (2 : K) ^ a * (2 : K) ^ (1 - n) := zpow_add₀ two_ne_zero _ _
    _ ≤ _ := mul_le_mul hx b1 hp.le (abs_nonneg _)

/-- **C96** (fine maps). For resolutions of at most 2, every point whose coordinates are numbers of the scalar type, subnormal ones included, gets the index of C77. -/
theorem C96_same_index_fine {T : Format} (hT : T = .single ∨ T = .double) (ht : 1 ≤ T.t) (r : K) (h1 : (2 : K) ^ (T.emin + 1) ≤ r) (h2 : r ≤ 2) (p : Pt K d)
    (hp : ∀ i, Spec.InFormat T (p i)) : finiteIndexF T r p = toBundleIndexR (ieeeArith K T.t ht) r p := by
  obtain ⟨_, _, f1, _⟩ := scalar_facts hT
  have h2' : r ≤ (2 : K) ^ (1 : Int) := by rwa [zpow_one]
  refine finiteIndexF_eq hT ht r h1 (h2'.trans (zpow_le_zpow_right₀ one_le_two (by omega))) p fun i hi => ?_
  rcases (hp i).smallest with h | h
  · exact absurd hi (by rw [h]; exact lt_irrefl _)
  · exact no_underflow hT ht r h1 (by omega) h2' (by omega) h

/-- **C96** (any useful map). For resolutions of at most `2^t` (16777216 for `float`), every point whose coordinates are zero or normal numbers gets the index of C77. -/
theorem C96_same_index_normal {T : Format} (hT : T = .single ∨ T = .double) (ht : 1 ≤ T.t) (r : K) (h1 : (2 : K) ^ (T.emin + 1) ≤ r) (h2 : r ≤ (2 : K) ^ T.t) (p : Pt K d)
    (hp : Spec.NoSubnormal T p) : finiteIndexF T r p = toBundleIndexR (ieeeArith K T.t ht) r p := by
  have f : (T.t : Int) ≤ -T.emin := by rcases hT with rfl | rfl <;> decide
  have h2' : r ≤ (2 : K) ^ (T.t : Int) := by rwa [zpow_natCast]
  refine finiteIndexF_eq hT ht r h1 (h2'.trans (zpow_le_zpow_right₀ one_le_two f)) p fun i hi => ?_
  rcases hp i with h | h
  · exact absurd hi (by rw [h]; exact lt_irrefl _)
  · exact no_underflow hT ht r h1 f h2' (by omega) h

/-- **C96** (containment). For every resolution and every point: a point with an index lies in its bundle up to the relative error of C77 and an absolute error of `r * 2^(emin - t)`, which is `r * 2^-150` for `float`. -/
theorem C96_near_bundle {T : Format} (hT : T = .single ∨ T = .double) (r : K) (h1 : (2 : K) ^ (T.emin + 1) ≤ r) (h2 : r ≤ (2 : K) ^ (-T.emin))
    (hr : toBits T.t r = r) (p : Pt K d) (b : Idx d) (h : finiteIndexF T r p = some b) :
    Spec.NearBundleAbs ((1 + ((2 : K) ^ T.t)⁻¹) ^ 2 * (1 + ((2 : K) ^ 53)⁻¹) - 1) (r * (2 : K) ^ (T.emin - (T.t : Int))) r b p := by
  obtain ⟨ht, f53, f1, _⟩ := scalar_facts hT
  have hrp : 0 < r := lt_of_lt_of_le (zpow_pos two_pos _) h1
  have hh := C77_half_exact T.t ht f53 r hr
  have hε : 0 ≤ (1 + ((2 : K) ^ T.t)⁻¹) ^ 2 * (1 + ((2 : K) ^ 53)⁻¹) - 1 := by
    have a1 : (0 : K) ≤ ((2 : K) ^ T.t)⁻¹ := by positivity
    have a2 : (0 : K) ≤ ((2 : K) ^ 53)⁻¹ := by positivity
    generalize ((2 : K) ^ T.t)⁻¹ = u at a1 ⊢
    generalize ((2 : K) ^ 53)⁻¹ = v at a2 ⊢
    have : (1 + u) ^ 2 * (1 + v) - 1 = 2 * u + u * u + v + 2 * (u * v) + u * u * v := by ring
    rw [this]
    positivity
  have hδ : 0 < r * (2 : K) ^ (T.emin - (T.t : Int)) := mul_pos hrp (zpow_pos two_pos _)
  intro i
  have hi := (toBundleIndexF_eq_some T r _ b).1 h i
  simp only [C96_index hT ht r h1 h2] at hi
  split at hi
  · rename_i hc
    have hb : b i = 0 := (Option.some.inj hi).symm
    have hinv : 1 / r ≤ bundleResolutionInvR (ieeeArith K T.t ht) r := by
      have e1 := (abs_le.1 (inv_err (ieeeArith K T.t ht) hrp hh)).1
      have hu : (1 + (ieeeArith K T.t ht).T.u) * (1 + (ieeeArith K T.t ht).D.u) - 1 ≤ 1 / 2 := by
        rcases hT with rfl | rfl <;> (show (1 + ((2 : K) ^ _)⁻¹) * (1 + ((2 : K) ^ _)⁻¹) - 1 ≤ 1 / 2) <;> norm_num [Format.single, Format.double]
      have h2r : 0 < 2 / r := by positivity
      rw [abs_of_pos h2r] at e1
      have := mul_le_mul_of_nonneg_right hu h2r.le
      have e2 : 2 / r - 1 / 2 * (2 / r) = 1 / r := by field_simp; norm_num
      linarith
    have hpi : |p i| ≤ r * (2 : K) ^ (T.emin - (T.t : Int)) := by
      have h3 := hc.2
      rw [abs_mul, abs_of_pos (lt_of_lt_of_le (by positivity) hinv)] at h3
      have h4 := (mul_le_mul_of_nonneg_left hinv (abs_nonneg (p i))).trans h3
      rw [mul_one_div, div_le_iff₀ hrp] at h4
      linarith
    have hm := mul_nonneg hε (abs_nonneg (p i))
    have := (abs_le.1 hpi).1
    rw [hb]
    constructor
    · push_cast; linarith
    · have := hc.1
      push_cast; linarith
  · have hi := toInt_eq_some.1 hi
    have h3 := C77_near_bundle (d := 1) (ieeeArith K T.t ht) r hrp hh (fun _ => p i) (fun _ => b i)
      ((toBundleIndexR_eq_some _ r _ _).2 fun _ => ⟨hi.1, by rw [← hi.1]; exact hi.2⟩) 0
    obtain ⟨h4, h5⟩ := h3
    change (b i : K) * (r / 2) - ((1 + ((2 : K) ^ T.t)⁻¹) ^ 2 * (1 + ((2 : K) ^ 53)⁻¹) - 1) * |p i| ≤ p i at h4
    change p i < ((b i : K) + 1) * (r / 2) + ((1 + ((2 : K) ^ T.t)⁻¹) ^ 2 * (1 + ((2 : K) ^ 53)⁻¹) - 1) * |p i| at h5
    exact ⟨by linarith, by linarith⟩

/-- **C96** (order). The index of a coordinate grows with the coordinate, for all finite coordinates. -/
theorem C96_monotone {T : Format} (hT : T = .single ∨ T = .double) (r : K) (h1 : (2 : K) ^ (T.emin + 1) ≤ r) (h2 : r ≤ (2 : K) ^ (-T.emin)) (p q : Pt K d) (b b' : Idx d)
    (h : finiteIndexF T r p = some b) (h' : finiteIndexF T r q = some b') (i : Fin d) (hpq : p i ≤ q i) : b i ≤ b' i := by
  obtain ⟨ht, _⟩ := scalar_facts hT
  have hi := (toBundleIndexF_eq_some T r _ b).1 h i
  have hi' := (toBundleIndexF_eq_some T r _ b').1 h' i
  simp only [C96_index hT ht r h1 h2] at hi hi'
  obtain ⟨_, _, b1, _⟩ := members_between hT ht r (le_refl _) (le_refl _) h1 h2
  have hinv : 0 < bundleResolutionInvR (ieeeArith K T.t ht) r := lt_of_lt_of_le (zpow_pos two_pos _) b1
  have mono : ∀ x y : K, x ≤ y → ⌊(ieeeArith K T.t ht).T.rnd (x * bundleResolutionInvR (ieeeArith K T.t ht) r)⌋ ≤ ⌊(ieeeArith K T.t ht).T.rnd (y * bundleResolutionInvR (ieeeArith K T.t ht) r)⌋ :=
    fun x y hxy => Int.floor_le_floor ((ieeeArith K T.t ht).T.mono _ _ (mul_le_mul_of_nonneg_right hxy hinv.le))
  have zero : ⌊(ieeeArith K T.t ht).T.rnd (0 * bundleResolutionInvR (ieeeArith K T.t ht) r)⌋ = 0 := by
    rw [zero_mul, Rounding.zero, Int.floor_zero]
  split at hi
  · rename_i hc
    have hb : b i = 0 := (Option.some.inj hi).symm
    split at hi'
    · rw [hb, ← Option.some.inj hi']
    · rename_i hc'
      rw [hb, ← (toInt_eq_some.1 hi').1, ← zero]
      refine mono _ _ ?_
      by_contra hq
      have hq := not_le.1 hq
      refine hc' ⟨hq, le_trans ?_ hc.2⟩
      rw [abs_mul, abs_mul]
      refine mul_le_mul_of_nonneg_right ?_ (abs_nonneg _)
      rw [abs_of_neg hq, abs_of_neg hc.1]; linarith
  · have hbi := (toInt_eq_some.1 hi).1
    split at hi'
    · rename_i hc'
      rw [← Option.some.inj hi', ← hbi, ← zero]
      exact mono _ _ (hpq.trans hc'.1.le)
    · rw [← (toInt_eq_some.1 hi').1, ← hbi]
      exact mono _ _ hpq

/-- **C96** (powers of two, part). For a resolution of `2^n` with `n ≤ 1`, every point of the scalar type, subnormal coordinates included, gets the index of the bundle that contains it. Missing: larger powers of two, for which
it is false (`C96_exact_refuted`). -/
theorem C96_exact_power_of_two_partial {T : Format} (hT : T = .single ∨ T = .double) (n : Int) (h1 : T.emin + 1 ≤ n) (h2 : n ≤ 1) (p : Pt K d) (hp : ∀ i, Spec.InFormat T (p i)) (b : Idx d)
    (hb : ∀ i, -2147483648 ≤ b i ∧ b i < 2147483648) : finiteIndexF T ((2 : K) ^ n) p = some b ↔ Spec.InBundle ((2 : K) ^ n) b p := by
  obtain ⟨ht, _⟩ := scalar_facts hT
  rw [C96_same_index_fine hT ht _ (zpow_le_zpow_right₀ one_le_two h1) (by have := zpow_le_zpow_right₀ (one_le_two (α := K)) h2; rwa [zpow_one] at this) p hp]
  exact C77_exact_power_of_two T.t ht n p (fun i => (hp i).toBits ht) b hb

/-- **C96 (refuted part).** For every resolution `2^n` with `n ≥ 2`, in `float` and in `double`, the largest negative number of the type gets index 0, whose bundle begins at 0. -/
theorem C96_exact_refuted {T : Format} (hT : T = .single ∨ T = .double) (n : Int) (h1 : 2 ≤ n) (h2 : n ≤ -T.emin) :
    Spec.InFormat T (-(2 : K) ^ (T.emin + 1 - (T.t : Int))) ∧ finiteIndexF T ((2 : K) ^ n) (fun _ : Fin d => -(2 : K) ^ (T.emin + 1 - (T.t : Int))) = some (fun _ => 0) ∧
      (0 < d → ¬ Spec.InBundle ((2 : K) ^ n) (fun _ : Fin d => 0) (fun _ => -(2 : K) ^ (T.emin + 1 - (T.t : Int)))) := by
  obtain ⟨ht, _, f1, f2, _⟩ := scalar_facts hT
  have hq : (0 : K) < (2 : K) ^ (T.emin + 1 - (T.t : Int)) := zpow_pos two_pos _
  refine ⟨⟨⟨-1, _, ?_, le_refl _, by push_cast; ring⟩, ?_⟩, ?_, fun hd h => ?_⟩
  · rw [abs_neg, abs_one]; exact one_lt_pow₀ (by norm_num) (by omega)
  · rw [abs_neg, abs_of_pos hq]; exact zpow_lt_zpow_right₀ one_lt_two (by omega)
  · refine (toBundleIndexF_eq_some _ _ _ _).2 fun i => ?_
    rw [C96_index hT ht _ (zpow_le_zpow_right₀ one_le_two (by omega)) (zpow_le_zpow_right₀ one_le_two h2), if_pos]
    refine ⟨by linarith, ?_⟩
    obtain ⟨_, _, b1, b2⟩ := members_between (K := K) hT ht ((2 : K) ^ n) (a := n) (b := n) (by omega) h2 (le_refl _) (le_refl _)
    rw [le_antisymm b2 b1, abs_mul, abs_neg, abs_of_pos hq, abs_of_pos (zpow_pos two_pos _), ← zpow_add₀ two_ne_zero]
    exact zpow_le_zpow_right₀ one_le_two (by omega)
  · have := (h ⟨0, hd⟩).1
    simp only [Int.cast_zero, zero_mul] at this
    linarith

omit [IsStrictOrderedRing K] in
open scoped Classical in
/-- **C96.** Contents are exact with respect to the computed indices: after any history the distribution of grid `c` at index `i` contains exactly the offered points whose computed
bundle exists in the map and overlaps that cell. -/
theorem C96_contents (k : Kind d) (T : Format) (g : Geo K d) (exp : Multiset (Pt K d) → Bool) (ops : List (GridOp K d))
    (st : St k.backend (Multiset (Pt K d))) (h : gridRunF T g k.dyn exp ops (k.init _) = some st) (c : Nat) (hc : c < 2 ^ d) (i : Idx d) :
    (st.content c i).getD 0 =
      (Spec.offered g ops).filter fun p => ∃ b, finiteIndexF T g.r p = some b ∧ Spec.HasBundle k b ∧ generateIndex b c = i := by
  obtain ⟨_, _, h3, h4⟩ := gridRunF_spec k.lawful T g k.dyn exp ops _ st k.init_rinv h
  have hdef := offeredF_defined k.lawful T g k.dyn exp ops _ st k.init_rinv h
  have e := h3 c hc i
  have e0 : (k.init (Multiset (Pt K d))).abs.val c i = 0 := by unfold Abs.val; rw [Kind.init_content]; rfl
  rw [e0, zero_add] at e
  refine Eq.trans (show _ = st.abs.val c i from rfl) (e.trans ?_)
  rw [← Multiset.filter_coe, accOpsF_eq T g k ops hdef, Multiset.filter_filter]
  refine Multiset.filter_congr fun p hp => ?_
  obtain ⟨b, hb⟩ := Option.isSome_iff_exists.1 (hdef p hp)
  rw [idxF_of_some hb, hb]
  simp [and_comm]

omit [IsStrictOrderedRing K] in
open scoped Classical in
/-- **C96.** Every grid conserves the mass: the sample counts in grid `c` sum to the number of offered points whose computed bundle exists in the map. -/
theorem C96_mass (k : Kind d) (T : Format) (g : Geo K d) (exp : Multiset (Pt K d) → Bool) (ops : List (GridOp K d))
    (st : St k.backend (Multiset (Pt K d))) (h : gridRunF T g k.dyn exp ops (k.init _) = some st) (c : Nat) (hc : c < 2 ^ d) :
    ((k.backend.traverse (st.storage c)).map fun e => (st.heap e.2).card).sum =
      ((Spec.offered g ops).filter fun p => ∃ b, finiteIndexF T g.r p = some b ∧ Spec.HasBundle k b).card := by
  obtain ⟨hI, _, h3, h4⟩ := gridRunF_spec k.lawful T g k.dyn exp ops _ st k.init_rinv h
  have hdef := offeredF_defined k.lawful T g k.dyn exp ops _ st k.init_rinv h
  rw [← accOpsF_eq T g k ops hdef, Multiset.coe_card]
  have key : ∀ e ∈ k.backend.traverse (st.storage c), (st.heap e.2).card =
      ((accOpsF T g ((k.init (Multiset (Pt K d))).abs.valid k.dyn) ops).filter
        (fun p => decide (generateIndex (idxF T g.r p) c = e.1))).length := by
    rintro ⟨i, a⟩ he
    have hd : st.dist c i = some a := (k.lawful.mem_traverse _ (hI.inv.store c) i a).1 he
    have e := h3 c hc i
    have e0 : (k.init (Multiset (Pt K d))).abs.val c i = 0 := by unfold Abs.val; rw [Kind.init_content]; rfl
    rw [e0, zero_add] at e
    have hv : st.abs.val c i = st.heap a := by
      show (st.content c i).getD _ = _
      unfold content; rw [hd]; rfl
    rw [hv] at e
    rw [e, Multiset.coe_card]
  rw [List.map_congr_left key]
  have hmm : ((k.backend.traverse (st.storage c)).map fun e =>
        ((accOpsF T g ((k.init (Multiset (Pt K d))).abs.valid k.dyn) ops).filter
          (fun p => decide (generateIndex (idxF T g.r p) c = e.1))).length) =
      ((k.backend.traverse (st.storage c)).map Prod.fst).map fun i =>
        ((accOpsF T g ((k.init (Multiset (Pt K d))).abs.valid k.dyn) ops).filter
          (fun p => decide (generateIndex (idxF T g.r p) c = i))).length := by
    rw [List.map_map]; rfl
  rw [hmm]
  refine sum_card_filter (fun p => generateIndex (idxF T g.r p) c) _ _ (k.lawful.nodup_traverse _ (hI.inv.store c)) ?_
  intro p hp
  have hal := (h4 p hp).1
  have hsome := (hI.ainv.used c (generateIndex (idxF T g.r p) c)).2 ⟨hc, _, hal, rfl⟩
  obtain ⟨x, hx⟩ := Option.isSome_iff_exists.1 hsome
  have hx' : st.content c (generateIndex (idxF T g.r p) c) = some x := hx
  unfold content at hx'
  obtain ⟨a, ha, _⟩ := Option.map_eq_some_iff.1 hx'
  exact List.mem_map.2 ⟨(_, a), (k.lawful.mem_traverse _ (hI.inv.store c) _ a).2 ha, rfl⟩

/-- **C96** (containment of stored points). Whatever the history, a stored point lies in the cell of its distribution up to the relative error of C77 and the absolute error of `C96_near_bundle`. -/
theorem C96_stored_near (k : Kind d) {T : Format} (hT : T = .single ∨ T = .double) (g : Geo K d) (h1 : (2 : K) ^ (T.emin + 1) ≤ g.r) (h2 : g.r ≤ (2 : K) ^ (-T.emin)) (hr : toBits T.t g.r = g.r)
    (exp : Multiset (Pt K d) → Bool) (ops : List (GridOp K d)) (st : St k.backend (Multiset (Pt K d))) (h : gridRunF T g k.dyn exp ops (k.init _) = some st)
    (c : Nat) (hc : c < 2 ^ d) (i : Idx d) (s : Multiset (Pt K d)) (hs : st.content c i = some s) (p : Pt K d) (hp : p ∈ s) :
    p ∈ Spec.offered g ops ∧ Spec.NearCellAbs ((1 + ((2 : K) ^ T.t)⁻¹) ^ 2 * (1 + ((2 : K) ^ 53)⁻¹) - 1) (g.r * (2 : K) ^ (T.emin - (T.t : Int))) g.r c i p := by
  classical
  have e := C96_contents k T g exp ops st h c hc i
  rw [hs, Option.getD_some] at e
  rw [e, Multiset.mem_filter] at hp
  obtain ⟨ho, b, hb, _, hbi⟩ := hp
  refine ⟨ho, ?_⟩
  have hrp : 0 < g.r := lt_of_lt_of_le (zpow_pos two_pos _) h1
  intro j
  obtain ⟨a1, a2⟩ := C96_near_bundle hT g.r h1 h2 hr p b hb j
  generalize ((1 + ((2 : K) ^ T.t)⁻¹) ^ 2 * (1 + ((2 : K) ^ 53)⁻¹) - 1) * |p j| = ε at *
  generalize g.r * (2 : K) ^ (T.emin - (T.t : Int)) = δ at *
  have hk : generateIndex b c j = getIndexInner (b j) c j.1 := rfl
  rw [← hbi]
  generalize generateIndex b c j = m at *
  have := (getIndexInner_eq_iff (b j) m c j.1).1 hk.symm
  unfold Spec.shift
  by_cases hb : c.testBit j.1
  · simp only [hb, if_true] at this ⊢
    rcases this with h | h <;> (rw [h] at a1 a2; push_cast at a1 a2) <;> constructor <;> linarith
  · simp only [hb] at this ⊢
    simp at this ⊢
    rcases this with h | h <;> (rw [h] at a1 a2; push_cast at a1 a2) <;> constructor <;> linarith

/-! ### Whole histories -/

omit [IsStrictOrderedRing K] in
theorem collectQ_agree {q : Pt K d → Option (Idx d)} (R : Arith K) (g : Geo K d) (ok : Idx d → Bool) (pose : Pt K d → Pt K d) : ∀ (cloud : List (Pt K d)) (u : List (Idx d × Multiset (Pt K d))),
    (∀ p ∈ ((cloud.map pose).filter (fun p => g.normal p)).map g.toMap, q p = toBundleIndexR R g.r p) → collectQ q g ok pose cloud u = collectR R g ok pose cloud u
  | [], _, _ => rfl
  | p :: cloud, u, h => by
    simp only [collectQ, collectR]
    by_cases hn : g.normal (pose p) = true
    · simp only [List.map_cons, List.filter_cons, hn, if_true, List.mem_cons, forall_eq_or_imp] at h
      simp only [hn, if_true]
      rw [h.1]
      exact congrArg _ (funext fun bi => collectQ_agree R g ok pose cloud _ h.2)
    · rw [Bool.not_eq_true] at hn
      simp only [List.map_cons, List.filter_cons, hn, Bool.false_eq_true, if_false] at h
      simp only [hn, Bool.false_eq_true, if_false]
      exact collectQ_agree R g ok pose cloud _ h

omit [IsStrictOrderedRing K] in
theorem gridRunF_agree {B : Backend d} (T : Format) (R : Arith K) (g : Geo K d) (dyn : Bool) (exp : Multiset (Pt K d) → Bool) : ∀ (ops : List (GridOp K d)) (st : St B (Multiset (Pt K d))),
    (∀ p ∈ Spec.offered g ops, finiteIndexF T g.r p = toBundleIndexR R g.r p) → gridRunF T g dyn exp ops st = gridRunR R g dyn exp ops st
  | [], _, _ => rfl
  | op :: ops, st, h => by
    have key : gridStepF T g dyn exp op st = gridStepR R g dyn exp op st := by
      cases op with
      | core op => rfl
      | insert pose cloud =>
        simp only [gridStepF, gridStepR, gridInsertF, gridInsertR]
        rw [collectQ_agree R g _ pose cloud [] fun p hp => h p (by simp only [Spec.offered]; exact Multiset.mem_add.2 (Or.inl hp))]
    simp only [gridRunF, gridRunR]
    rw [key]
    refine congrArg _ (funext fun st1 => gridRunF_agree T R g dyn exp ops st1 fun p hp => h p ?_)
    cases op with
    | insert pose cloud => simp only [Spec.offered]; exact Multiset.mem_add.2 (Or.inr hp)
    | core op => exact hp

variable {W E : Type} [AddCommMonoid W]

omit [IsStrictOrderedRing K] in
theorem occRunF_agree {B : Backend d} (T : Format) (R : Arith K) (fl : Flavour K d W E) (g : Geo K d) (dyn : Bool) (defRay : Pt K d → Pt K d → List (Idx d)) (exp : Occ W E → Bool) :
    ∀ (ops : List (OccMapOp K d W E)) (st : St B (Occ W E)), (∀ op ∈ ops, ∀ p ∈ Spec.quantised g op, finiteIndexF T g.r p = toBundleIndexR R g.r p) →
    occRunF T fl g dyn defRay exp ops st = occRunR R fl g dyn defRay exp ops st
  | [], _, _ => rfl
  | op :: ops, st, h => by
    have h0 := h op (List.mem_cons_self ..)
    have col : ∀ s : Scan K d W, (∀ p ∈ Spec.scanned g s, finiteIndexF T g.r p = toBundleIndexR R g.r p) →
        occCollectF T fl g (st.valid dyn) s.pose s.cloud = occCollectR R fl g (st.valid dyn) s.pose s.cloud := by
      intro s hs
      unfold occCollectF occCollectR
      rw [collectQ_agree R g _ s.pose _ [] fun p hp => hs p hp]
    have ins : ∀ s : Scan K d W, (∀ p ∈ Spec.scanned g s, finiteIndexF T g.r p = toBundleIndexR R g.r p) → occInsertF T fl g dyn s st = occInsertR R fl g dyn s st := by
      intro s hs
      unfold occInsertF occInsertR
      rw [col s hs]
      rfl
    have fb : ∀ s : Scan K d W, Spec.scanned g (if fl.fallbackDefault then { s with ray := defRay } else s) = Spec.scanned g s := by
      intro s; split <;> rfl
    have key : occStepF T fl g dyn defRay exp op st = occStepR R fl g dyn defRay exp op st := by
      cases op with
      | core op => rfl
      | insert s => exact ins s h0
      | insertVisible s occ vm =>
        have hs : ∀ p ∈ Spec.scanned g s, finiteIndexF T g.r p = toBundleIndexR R g.r p := fun p hp => h0 p (Multiset.mem_cons_of_mem hp)
        have hf := ins (if fl.fallbackDefault then { s with ray := defRay } else s) (by rw [fb s]; exact hs)
        cases occ with
        | none => exact hf
        | some occ =>
          cases vm with
          | none => exact hf
          | some vm =>
            simp only [occStepF, occInsertVisibleF, occStepR, occInsertVisibleR]
            rw [col s hs, show finiteIndexF T g.r (rayStart g s.pose) = toBundleIndexR R g.r (rayStart g s.pose) from h0 _ (show _ ∈ g.toMap (s.pose 0) ::ₘ Spec.scanned g s from Multiset.mem_cons_self _ _)]
            rfl
    simp only [occRunF, occRunR]
    rw [key]
    exact congrArg _ (funext fun st1 => occRunF_agree T R fl g dyn defRay exp ops st1 fun o ho => h o (List.mem_cons_of_mem _ ho))

theorem ordinary_index {T : Format} (hT : T = .single ∨ T = .double) (ht : 1 ≤ T.t) (r : K) (h1 : (2 : K) ^ (T.emin + 1) ≤ r) (p : Pt K d) (hp : Spec.Ordinary T r p) :
    finiteIndexF T r p = toBundleIndexR (ieeeArith K T.t ht) r p := by
  rcases hp with ⟨h, hp⟩ | ⟨h, hp⟩
  · exact C96_same_index_fine hT ht r h1 h p hp
  · exact C96_same_index_normal hT ht r h1 h p hp

/-- **C96** (histories of NDT maps). As long as every offered point is ordinary, the map of floats or doubles goes through exactly the states of C77, where exponents are unbounded: all theorems of C77 hold for it. -/
theorem C96_history {B : Backend d} {T : Format} (hT : T = .single ∨ T = .double) (ht : 1 ≤ T.t) (g : Geo K d) (h1 : (2 : K) ^ (T.emin + 1) ≤ g.r) (dyn : Bool) (exp : Multiset (Pt K d) → Bool)
    (ops : List (GridOp K d)) (st : St B (Multiset (Pt K d))) (hp : ∀ p ∈ Spec.offered g ops, Spec.Ordinary T g.r p) :
    gridRunF T g dyn exp ops st = gridRunR (ieeeArith K T.t ht) g dyn exp ops st :=
  gridRunF_agree T _ g dyn exp ops st fun p h => ordinary_index hT ht g.r h1 p (hp p h)

/-- **C96** (histories of occupancy maps, both classes). The same for scans with and without visibility: all theorems of C93 hold. -/
theorem C96_occupancy_history {B : Backend d} {T : Format} (hT : T = .single ∨ T = .double) (ht : 1 ≤ T.t) (fl : Flavour K d W E) (g : Geo K d) (h1 : (2 : K) ^ (T.emin + 1) ≤ g.r) (dyn : Bool)
    (defRay : Pt K d → Pt K d → List (Idx d)) (exp : Occ W E → Bool) (ops : List (OccMapOp K d W E)) (st : St B (Occ W E)) (hp : ∀ op ∈ ops, ∀ p ∈ Spec.quantised g op, Spec.Ordinary T g.r p) :
    occRunF T fl g dyn defRay exp ops st = occRunR (ieeeArith K T.t ht) fl g dyn defRay exp ops st :=
  occRunF_agree T _ fl g dyn defRay exp ops st fun op ho p h => ordinary_index hT ht g.r h1 p (hp op ho p h)

end

/-! ### Concrete cases -/

/-- a subnormal float, a float that overflows, and a tie between zero and the smallest float -/
example : Format.single.round (3 * (2 : ℚ) ^ (-150 : Int)) = .fin ((2 : ℚ) ^ (-148 : Int)) ∧ Format.single.round ((2 : ℚ) ^ (-150 : Int)) = .fin 0 ∧
    Format.single.round ((2 : ℚ) ^ (128 : Int) - (2 : ℚ) ^ (103 : Int)) = .inf false ∧ Format.single.round (-(2 : ℚ) ^ (127 : Int)) = .fin (-(2 : ℚ) ^ (127 : Int)) := by decide +kernel

/-- the resolution 0.1f is in the range of the theorems, and the float (0.25, -0.375) gets the index of C77 -/
example : (2 : ℚ) ^ (Format.single.emin + 1) ≤ tenth ∧ tenth ≤ 2 ∧ toBits Format.single.t tenth = tenth ∧ finiteIndexF Format.single tenth ![1 / 4, -3 / 8] = some ![5, -8] := by decide +kernel
example : ∀ i : Fin 2, Spec.InFormat Format.single ((![1 / 4, -3 / 8] : Pt ℚ 2) i) := by
  intro i
  fin_cases i
  · exact ⟨⟨1, -2, by norm_num [Format.single], by norm_num [Format.single], by norm_num⟩, by norm_num [Format.single]⟩
  · exact ⟨⟨-3, -3, by norm_num [Format.single], by norm_num [Format.single], by norm_num⟩, by norm_num [Format.single]⟩

/-- a resolution that vanishes -/
example : bundleResolutionF Format.single ((2 : ℚ) ^ (-149 : Int)) = .fin 0 := by decide +kernel

/-- A map of floats with resolution 4 whose origin is next to the smallest normal number, at a distance of one last bit. -/
def tinyGeo : Geo ℚ 2 where
  r := 4
  toMap p := fun i => p i - ((2 : ℚ) ^ (-126 : Int) + (2 : ℚ) ^ (-149 : Int))
  normal p := decide (∀ i, (2 : ℚ) ^ (-126 : Int) ≤ |p i|)

/-- the smallest normal number, twice -/
def tinyPoint : Pt ℚ 2 := fun _ => (2 : ℚ) ^ (-126 : Int)

def tinyRun : Option (St (Kind.static (d := 2) ![3, 3] ![-2, -2]).backend (Multiset (Pt ℚ 2))) :=
  gridRunF Format.single tinyGeo false (fun _ => true) [.insert id [tinyPoint, fun _ => 3]] ((Kind.static (d := 2) ![3, 3] ![-2, -2]).init _)

theorem tinyRun_runs : tinyRun.isSome = true := by decide +kernel

theorem tiny_index : finiteIndexF Format.single 4 (tinyGeo.toMap tinyPoint) = some ![0, 0] ∧ ∀ i, tinyGeo.toMap tinyPoint i = -(2 : ℚ) ^ (-149 : Int) := by decide +kernel

/-- **C96 (refuted part).** Exact containment fails even for a resolution that is a power of two and for points that are normal in world coordinates: in a map of floats with resolution 4, a point with map coordinates of `-2^-149` is stored in cell
`(0, 0)` of grid 0, which begins at 0. (Without bounds on exponents C77 proves exact containment for powers of two.) -/
theorem C96_stored_exact_refuted : ∃ st, tinyRun = some st ∧ ∃ s, st.content 0 ![0, 0] = some s ∧ tinyGeo.toMap tinyPoint ∈ s ∧ tinyGeo.normal tinyPoint = true ∧
    ¬ Spec.InCell tinyGeo.r 0 ![0, 0] (tinyGeo.toMap tinyPoint) := by
  classical
  refine ⟨_, (Option.some_get tinyRun_runs).symm, ?_⟩
  generalize hst : tinyRun.get tinyRun_runs = st
  have h : gridRunF Format.single tinyGeo (Kind.static (d := 2) ![3, 3] ![-2, -2]).dyn (fun _ => true) [.insert id [tinyPoint, fun _ => 3]] ((Kind.static (d := 2) ![3, 3] ![-2, -2]).init _) = some st := by
    rw [← hst]; exact (Option.some_get tinyRun_runs).symm
  have e := C96_contents (Kind.static ![3, 3] ![-2, -2]) Format.single tinyGeo _ _ st h 0 (by decide) ![0, 0]
  have hn : tinyGeo.normal tinyPoint = true := by decide +kernel
  have hm : tinyGeo.toMap tinyPoint ∈ (st.content 0 ![0, 0]).getD 0 := by
    rw [e, Multiset.mem_filter]
    refine ⟨?_, ![0, 0], tiny_index.1, ?_, by decide⟩
    · simp only [Spec.offered]
      refine Multiset.mem_add.2 (Or.inl ?_)
      exact List.mem_map.2 ⟨tinyPoint, List.mem_filter.2 ⟨List.mem_map.2 ⟨tinyPoint, List.mem_cons_self .., rfl⟩, hn⟩, rfl⟩
    · show ∀ a, _ ∧ _
      decide
  cases hx : st.content 0 ![0, 0] with
  | none => rw [hx] at hm; exact absurd hm (Multiset.notMem_zero _)
  | some s =>
    rw [hx] at hm
    refine ⟨s, rfl, hm, hn, fun hc => ?_⟩
    have := (hc 0).1
    rw [tiny_index.2 0] at this
    have h0 : Nat.testBit 0 0 = false := by decide
    simp [Spec.shift, tinyGeo] at this
    exact absurd this (by norm_num)

/-- Non-vacuity of `C96_contents`, `C96_mass` and `C96_stored_near`: this history runs, and 4 is a float in the range of resolutions. -/
example : (2 : ℚ) ^ (Format.single.emin + 1) ≤ tinyGeo.r ∧ tinyGeo.r ≤ (2 : ℚ) ^ (-Format.single.emin) ∧ toBits Format.single.t tinyGeo.r = tinyGeo.r ∧ tinyRun.isSome = true := by decide +kernel

/-- Non-vacuity of `C96_history` and `C96_occupancy_history`: the histories of C77 and C93 with resolution 0.1. -/
example : ∀ p ∈ Spec.offered tenthGeo [.insert id [![1 / 4, 1 / 4]]], Spec.Ordinary Format.single tenthGeo.r p := by
  intro p hp
  have : p = ![1 / 4, 1 / 4] := by simpa [Spec.offered, tenthGeo] using hp
  subst this
  exact Or.inr (by unfold Spec.NoSubnormal; decide +kernel)
example : ∀ op ∈ floatOps Nat (Pt ℚ 2), ∀ p ∈ Spec.quantised tenthGeo op, Spec.Ordinary Format.single tenthGeo.r p := by
  intro op hop p hp
  refine Or.inr ⟨by decide +kernel, ?_⟩
  unfold Spec.NoSubnormal
  simp only [floatOps, List.mem_cons, List.not_mem_nil, or_false] at hop
  rcases hop with rfl | rfl | rfl
  · have : p = ![1 / 4, 1 / 4] := by simpa [Spec.quantised, Spec.scanned, floatScan, tenthGeo] using hp
    rw [this]; decide +kernel
  · exact absurd hp (Multiset.notMem_zero p)
  · have : p = 0 ∨ p = ![9 / 32, 9 / 32] := by simpa [Spec.quantised, Spec.scanned, floatScan, tenthGeo] using hp
    rcases this with rfl | rfl <;> decide +kernel

end Ndt
