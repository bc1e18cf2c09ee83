import Verif.Proofs.OccFormat
import Verif.Props.OccSpecial
import Verif.Props.InterpolationFormat

/-! Property theorem C118: occupancies as numbers of type `float` and `double`, with underflow, overflow, infinities and NaN. -/

namespace Ndt
open Spec St

section counts
variable {E : Type} {T : Format}

theorem zero_unit (T : Format) : UnitNumber T (.fin (0 : ℝ)) :=
  ⟨0, rfl, ⟨⟨0, T.emin + 1 - T.t, by simp, le_rfl, by simp⟩, by simpa using zpow_pos (two_pos (α := ℝ)) T.emax⟩, le_rfl, zero_le_one⟩

/-- **C118** (range). Whatever is recorded, with or without overflow of the counters, and whatever the log odds of the inverse model, infinities and NaN included: the occupancy is NaN or a number of the scalar type from 0 to 1. -/
theorem C118_range (hT : T = .single ∨ T = .double) (X : ExpFn) (m : IvmFl) (o : Occ Nat E) : o.occupancyF T X m = .nan ∨ UnitNumber T (o.occupancyF T X m) := by
  unfold Occ.occupancyF
  split
  · exact Or.inr (zero_unit T)
  · rename_i s _
    by_cases h : evidenceF T m o.free s.card = .nan
    · left; rw [h]; rfl
    · exact Or.inr (logOddsFromF_unit hT X h)

/-- **C118** (no NaN). With finite log odds of moderate size, as those of all probabilities other than 0 and 1 (`C118_log_odds`), the occupancy is a number, after any history. -/
theorem C118_number (hT : T = .single ∨ T = .double) (X : ExpFn) (m : Ivm) (hm : ModerateIvm m) (o : Occ Nat E) : UnitNumber T (o.occupancyF T X (ivmFl m)) := by
  unfold Occ.occupancyF
  split
  · exact zero_unit T
  · rename_i s _
    obtain ⟨x, hx⟩ := evidenceF_fin hT (scalar_facts hT).1 hm o.free s.card
    rw [hx]
    exact logOddsFromF_unit hT X (by simp)

theorem occupancyF_eq (T : Format) (X : ExpFn) (m : IvmFl) (h : List (OccOp Nat E)) (hs : ∀ op ∈ h, Substantial op) :
    ((OccOp.run h).numOccupied = 0 → (OccOp.run h).occupancyF T X m = .fin 0) ∧
    (0 < (OccOp.run h).numOccupied → (OccOp.run h).occupancyF T X m = logOddsFromF T X (evidenceF T m (OccOp.run h).numFree (OccOp.run h).numOccupied)) := by
  obtain ⟨h1, h2⟩ := OccOp.run_data hs
  rw [Occ.numOccupied_eq]
  unfold Occ.occupancyF
  constructor
  · intro e
    rw [h1 (Multiset.card_eq_zero.1 e)]
  · intro e
    rw [h2 (Multiset.card_pos.1 e)]
    rfl

/-- **C118** (NaN). Exactly when the occupancy is NaN, if the log odds are infinite or of moderate size and the prior is not certain: after a hit, if the log odds of misses are infinite and there was no miss or hits have the opposite
infinity. Overflow of finite numbers causes no NaN. -/
theorem C118_nan_iff (hT : T = .single ∨ T = .double) (X : ExpFn) (m : IvmFl) (p : ℝ) (hp : m.logPrior = .fin p) (hpm : ModerateLog p) (hl : LogOddsValue m.logFree) (ho : LogOddsValue m.logOcc)
    (h : List (OccOp Nat E)) (hs : ∀ op ∈ h, Substantial op) (hw : (OccOp.run h).numFree + (OccOp.run h).numOccupied < 2 ^ 64) :
    (OccOp.run h).occupancyF T X m = .nan ↔ 0 < (OccOp.run h).numOccupied ∧ ∃ s, m.logFree = .inf s ∧ ((OccOp.run h).numFree = 0 ∨ m.logOcc = .inf !s) := by
  obtain ⟨h1, h2⟩ := occupancyF_eq T X m h hs
  rcases Nat.eq_zero_or_pos (OccOp.run h).numOccupied with e | e
  · rw [h1 e, e]; simp
  · rw [h2 e, logOddsFromF_eq_nan hT X, evidenceF_nan hT m hp hpm hl ho e hw]
    simp [e]

theorem unit_le_zero {T : Format} {v : Fl ℝ} (h : v ≠ .nan) (hr : v = .nan ∨ UnitNumber T v) : Fl.le (.fin 0) v = true := by
  rcases hr with hr | ⟨y, hy, _, h0, _⟩
  · exact absurd hr h
  · rw [hy]; simpa [Fl.le] using h0

/-- **C118** (hits). If hits do not speak against occupancy and the prior probability is at most 1/2, more hits never lower the occupancy, also if numbers overflow or log odds are infinite, as long as the values are not NaN. -/
theorem C118_more_hits (hT : T = .single ∨ T = .double) (X : ExpFn) (m : IvmFl) (ho : Fl.le (.fin 0) m.logOcc = true) (hp : Fl.le m.logPrior (.fin 0) = true) (h h' : List (OccOp Nat E))
    (hs : ∀ op ∈ h, Substantial op) (hs' : ∀ op ∈ h', Substantial op) (hf : (OccOp.run h).numFree = (OccOp.run h').numFree)
    (hn : (OccOp.run h).numOccupied ≤ (OccOp.run h').numOccupied) (hw : (OccOp.run h').numFree + (OccOp.run h').numOccupied < 2 ^ 64)
    (h1 : (OccOp.run h).occupancyF T X m ≠ .nan) (h2 : (OccOp.run h').occupancyF T X m ≠ .nan) :
    Fl.le ((OccOp.run h).occupancyF T X m) ((OccOp.run h').occupancyF T X m) = true := by
  rcases Nat.eq_zero_or_pos (OccOp.run h).numOccupied with e | e
  · rw [(occupancyF_eq T X m h hs).1 e]
    exact unit_le_zero h2 (C118_range hT X m _)
  · rw [(occupancyF_eq T X m h hs).2 e, hf] at h1 ⊢
    rw [(occupancyF_eq T X m h' hs').2 (by omega)] at h2 ⊢
    exact logOddsFromF_mono hT X (evidenceF_hits hT m ho hp e hn hw (fun c => h1 (by rw [c]; rfl)) (fun c => h2 (by rw [c]; rfl)))

/-- **C118** (misses). If misses do not speak for occupancy and the prior probability is at least 1/2, more misses never raise the occupancy. -/
theorem C118_more_misses (hT : T = .single ∨ T = .double) (X : ExpFn) (m : IvmFl) (hl : Fl.le m.logFree (.fin 0) = true) (hp : Fl.le (.fin 0) m.logPrior = true) (h h' : List (OccOp Nat E))
    (hs : ∀ op ∈ h, Substantial op) (hs' : ∀ op ∈ h', Substantial op) (hf : (OccOp.run h).numFree ≤ (OccOp.run h').numFree)
    (hn : (OccOp.run h).numOccupied = (OccOp.run h').numOccupied) (hw : (OccOp.run h').numFree + (OccOp.run h').numOccupied < 2 ^ 64)
    (h1 : (OccOp.run h).occupancyF T X m ≠ .nan) (h2 : (OccOp.run h').occupancyF T X m ≠ .nan) :
    Fl.le ((OccOp.run h').occupancyF T X m) ((OccOp.run h).occupancyF T X m) = true := by
  rcases Nat.eq_zero_or_pos (OccOp.run h).numOccupied with e | e
  · rw [(occupancyF_eq T X m h' hs').1 (by omega)]
    exact unit_le_zero h1 (C118_range hT X m _)
  · rw [(occupancyF_eq T X m h hs).2 e] at h1 ⊢
    rw [(occupancyF_eq T X m h' hs').2 (by omega), ← hn] at h2 ⊢
    exact logOddsFromF_mono hT X (evidenceF_misses hT m hl hp e hf (by omega) (fun c => h1 (by rw [c]; rfl)) (fun c => h2 (by rw [c]; rfl)))

/-- **C118** (agreement). With ordinary log odds the occupancy is the one of C88, where exponents are unbounded: overflow and underflow of the exponential function and of the quotient make no difference. -/
theorem C118_agrees (hT : T = .single ∨ T = .double) (ht : 1 ≤ T.t) (X : ExpFn) (hX : ExpBits T.t X) (m : Ivm) (hm : OrdinaryIvm m) (h : List (OccOp Nat E)) (hs : ∀ op ∈ h, Substantial op)
    (hw : (OccOp.run h).numFree + (OccOp.run h).numOccupied < 2 ^ 64) :
    (OccOp.run h).occupancyF T X (ivmFl m) = .fin ((OccOp.run h).occupancyR (ieee ℝ T.t ht) X m) := by
  obtain ⟨h1, h2⟩ := occupancyF_eq T X (ivmFl m) h hs
  obtain ⟨g1, g2⟩ := occupancyR_eq (ieee ℝ T.t ht) X m h hs
  rcases Nat.eq_zero_or_pos (OccOp.run h).numOccupied with e | e
  · rw [h1 e, g1 e]
  · rw [h2 e, g2 e, evidenceF_ordinary hT ht hm (by omega) (by omega), logOddsFromF_fin hT ht X (hX _)]

/-- **C118** (error). Hence its distance from the exact occupancy (C21), for `float` and `double`. -/
theorem C118_error (hT : T = .single ∨ T = .double) (X : ExpFn) (hX : ExpBits T.t X) (he : X.e ≤ 1 / 8) (m : Ivm) (hm : OrdinaryIvm m) (h : List (OccOp Nat E)) (hs : ∀ op ∈ h, Substantial op)
    (hw : (OccOp.run h).numFree + (OccOp.run h).numOccupied < 2 ^ 64) :
    ∃ v, (OccOp.run h).occupancyF T X (ivmFl m) = .fin v ∧ |v - (OccOp.run h).occupancy m| ≤
      1 / 4 * (((1 + ((2 : ℝ) ^ T.t)⁻¹) ^ 4 - 1) * magnitude m (OccOp.run h).numFree (OccOp.run h).numOccupied) + 4 * (((2 : ℝ) ^ T.t)⁻¹ + X.e) := by
  have ht := (scalar_facts hT).1
  refine ⟨_, C118_agrees hT ht X hX m hm h hs hw, ?_⟩
  refine C88_error (ieee ℝ T.t ht) (toBits_one T.t ht) ?_ X he m h hs hw.le
  show ((2 : ℝ) ^ T.t)⁻¹ ≤ 1 / 8
  rw [inv_eq_one_div]
  apply one_div_le_one_div_of_le (by norm_num)
  calc (8 : ℝ) = 2 ^ 3 := by norm_num
    _ ≤ 2 ^ T.t := pow_le_pow_right₀ one_le_two (by have := (scalar_wide hT).2.2; omega)

end counts

/-! ### Inverse models from probabilities -/

section probabilities
variable {T : Format}

theorem logit_bounds (hT : T = .single ∨ T = .double) {p : ℝ} (hp : InFormat T p) (h0 : 0 < p) (h1 : p < 1) : |logit p| ≤ 1100 ∧ (p = 1 / 2 ∨ ((2 : ℝ) ^ T.t)⁻¹ ≤ |logit p|) := by
  have ht := (scalar_facts hT).1
  have hw : -1074 ≤ T.emin + 1 - (T.t : Int) ∧ T.t ≤ 53 := by rcases hT with rfl | rfl <;> decide
  have h1p : 0 < 1 - p := by linarith
  have hq : 0 < p / (1 - p) := div_pos h0 h1p
  have g1 : ((2 : ℝ) ^ T.t)⁻¹ ≤ 1 - p := by
    have := gap_one T.t ht hp.hasBits h0.le h1.ne
    rwa [abs_of_neg (by linarith), neg_sub] at this
  have l2 : Real.log 2 ≤ 1 := by have := Real.log_two_lt_d9; linarith
  have l20 : 0 ≤ Real.log 2 := Real.log_nonneg one_le_two
  unfold logit
  constructor
  · rw [abs_le]
    constructor
    · have lo : (2 : ℝ) ^ (-1074 : Int) ≤ p / (1 - p) := by
        have s : (2 : ℝ) ^ (T.emin + 1 - (T.t : Int)) ≤ p := by
          rcases hp.smallest with h | h
          · linarith
          · rwa [abs_of_pos h0] at h
        rw [le_div_iff₀ h1p]
        have := (zpow_le_zpow_right₀ (one_le_two (α := ℝ)) hw.1).trans s
        have hz : (0 : ℝ) < (2 : ℝ) ^ (-1074 : Int) := zpow_pos two_pos _
        nlinarith
      have := Real.log_le_log (zpow_pos two_pos _) lo
      rw [Real.log_zpow] at this
      push_cast at this
      linarith
    · have hi : p / (1 - p) ≤ 2 ^ T.t := by
        rw [div_le_iff₀ h1p]
        have hP : (0 : ℝ) < 2 ^ T.t := by positivity
        have := mul_le_mul_of_nonneg_left g1 hP.le
        rw [mul_inv_cancel₀ hP.ne'] at this
        linarith
      have := Real.log_le_log hq hi
      rw [Real.log_pow] at this
      have ht53 : (T.t : ℝ) ≤ 53 := by exact_mod_cast hw.2
      nlinarith
  · by_cases hh : p = 1 / 2
    · exact Or.inl hh
    right
    have hb : HasBits T.t (2 * p) := by
      obtain ⟨k, e, k1, k2⟩ := hp.hasBits
      exact ⟨k, e + 1, k1, by rw [k2, zpow_add₀ two_ne_zero, zpow_one]; ring⟩
    have g := gap_one T.t ht hb (by linarith) (fun h => hh (by linarith))
    refine g.trans ?_
    rcases lt_or_gt_of_ne hh with h | h
    · rw [abs_of_neg (by linarith), show p / (1 - p) = ((1 - p) / p)⁻¹ by rw [inv_div], Real.log_inv, abs_neg]
      have := Real.one_sub_inv_le_log_of_pos (div_pos h1p h0)
      rw [inv_div] at this
      refine le_trans ?_ (this.trans (le_abs_self _))
      rw [le_sub_iff_add_le, ← le_sub_iff_add_le', div_le_iff₀ h1p]
      nlinarith
    · rw [abs_of_pos (by linarith)]
      have := Real.one_sub_inv_le_log_of_pos hq
      rw [inv_div] at this
      refine le_trans ?_ (this.trans (le_abs_self _))
      rw [le_sub_iff_add_le, ← le_sub_iff_add_le', div_le_iff₀ h0]
      nlinarith

theorem ordinary_toBits (t : Nat) (ht : 1 ≤ t) {x : ℝ} (h : OrdinaryLog x) : OrdinaryLog (toBits t x) := by
  rcases h with rfl | ⟨h1, h2⟩
  · left; exact toBits_zero t
  right
  have e1 : (1 : ℝ) / 2 ^ 60 = (2 : ℝ) ^ (-60 : Int) := by norm_num
  have e2 : (2 : ℝ) ^ 20 = (2 : ℝ) ^ (20 : Int) := by norm_num
  have e3 : |toBits t x| = toBits t |x| := by
    rcases le_or_gt 0 x with hx | hx
    · rw [abs_of_nonneg hx, abs_of_nonneg (toBits_nonneg t hx)]
    · have := toBits_nonneg t (x := -x) (by linarith)
      rw [abs_of_neg hx, toBits_neg, abs_of_nonpos (by rw [toBits_neg] at this; linarith)]
  rw [e1] at h1 ⊢
  rw [e2] at h2 ⊢
  rw [e3]
  have a := toBits_mono t ht _ _ h1
  have b := toBits_mono t ht _ _ h2
  rw [toBits_two_pow t ht] at a b
  exact ⟨a, b⟩

/-- **C118** (log odds). The log odds of every probability of type `float` or `double` other than 0 and 1 are ordinary: neither too large nor too small. -/
theorem C118_log_odds (hT : T = .single ∨ T = .double) {p : ℝ} (hp : InFormat T p) (h0 : 0 < p) (h1 : p < 1) : OrdinaryLog (logit p) ∧ ∃ l, logOddsToF T p = .fin l ∧ OrdinaryLog l ∧ l = toBits T.t (logit p) := by
  have ht := (scalar_facts hT).1
  have hw : T.emin ≤ -60 ∧ 20 < T.emax ∧ T.t ≤ 60 := by rcases hT with rfl | rfl <;> decide
  obtain ⟨b1, b2⟩ := logit_bounds hT hp h0 h1
  have ho : OrdinaryLog (logit p) := by
    rcases b2 with rfl | b2
    · left; unfold logit; norm_num
    · right
      refine ⟨le_trans ?_ b2, b1.trans (by norm_num)⟩
      rw [inv_eq_one_div]
      exact one_div_le_one_div_of_le (by positivity) (pow_le_pow_right₀ one_le_two hw.2.2)
  have he : T.nearest (logit p) = toBits T.t (logit p) := by
    rcases ho with h | ⟨h, _⟩
    · rw [h, T.nearest_zero, toBits_zero]
    · apply T.nearest_normal
      refine le_trans (zpow_le_zpow_right₀ one_le_two hw.1) (le_trans (le_of_eq ?_) h)
      norm_num
  refine ⟨ho, _, ?_, ordinary_toBits T.t ht ho, rfl⟩
  have hb : |logit p| ≤ (2 : ℝ) ^ (20 : Int) := b1.trans (by norm_num)
  obtain ⟨r1, _⟩ := round_bounded hT (k := 20) (by omega) hw.2.1 hb
  unfold logOddsToF logOddsTo
  rw [if_neg h0.ne', if_neg h1.ne]
  show T.round (logit p) = _
  rw [r1, he]

theorem logOddsToF_certain {p : ℝ} (h : Certain p) : ∃ s, logOddsToF T p = .inf s ∧ (s = true ↔ p = 0) := by
  unfold logOddsToF logOddsTo
  rcases h with rfl | rfl
  · exact ⟨true, by rw [if_pos rfl]; rfl, by simp⟩
  · exact ⟨false, by rw [if_neg one_ne_zero, if_pos rfl]; rfl, by simp⟩

theorem logOddsToF_value (hT : T = .single ∨ T = .double) {p : ℝ} (hp : InFormat T p) (h0 : 0 ≤ p) (h1 : p ≤ 1) : LogOddsValue (logOddsToF T p) ∧ ((∃ s, logOddsToF T p = .inf s) ↔ Certain p) := by
  by_cases hc : Certain p
  · obtain ⟨s, hs, _⟩ := logOddsToF_certain (T := T) hc
    exact ⟨Or.inl ⟨s, hs⟩, fun _ => hc, fun _ => ⟨s, hs⟩⟩
  · obtain ⟨_, l, hl, ho, _⟩ := C118_log_odds hT hp (lt_of_le_of_ne h0 fun h => hc (Or.inl h.symm)) (lt_of_le_of_ne h1 fun h => hc (Or.inr h))
    refine ⟨Or.inr ⟨l, hl, ordinary_moderate ho⟩, fun ⟨s, hs⟩ => ?_, fun h => absurd h hc⟩
    rw [hl] at hs; cases hs

variable {E : Type}

/-- **C118** (NaN, in terms of probabilities). An inverse model made from probabilities of the scalar type, the prior neither 0 nor 1: the occupancy is NaN exactly after a hit if misses are certain and there was none, or hits are certain of the
opposite. So C97 holds for `float` and `double`. -/
theorem C118_probabilities (hT : T = .single ∨ T = .double) (X : ExpFn) (prior free occ : ℝ) (hprior : InFormat T prior) (hfree : InFormat T free) (hocc : InFormat T occ)
    (p0 : 0 < prior) (p1 : prior < 1) (f0 : 0 ≤ free) (f1 : free ≤ 1) (o0 : 0 ≤ occ) (o1 : occ ≤ 1) (h : List (OccOp Nat E)) (hs : ∀ op ∈ h, Substantial op)
    (hw : (OccOp.run h).numFree + (OccOp.run h).numOccupied < 2 ^ 64) :
    (OccOp.run h).occupancyF T X (.mkF T prior free occ) = .nan ↔ 0 < (OccOp.run h).numOccupied ∧ Certain free ∧ ((OccOp.run h).numFree = 0 ∨ Certain occ ∧ free ≠ occ) := by
  obtain ⟨_, l, hl, hlo, _⟩ := C118_log_odds hT hprior p0 p1
  obtain ⟨a1, a2⟩ := logOddsToF_value hT hfree f0 f1
  obtain ⟨b1, b2⟩ := logOddsToF_value hT hocc o0 o1
  rw [C118_nan_iff hT X (.mkF T prior free occ) l hl (ordinary_moderate hlo) a1 b1 h hs hw]
  show 0 < _ ∧ (∃ s, logOddsToF T free = .inf s ∧ (_ ∨ logOddsToF T occ = .inf !s)) ↔ _
  refine and_congr_right fun _ => ?_
  constructor
  · rintro ⟨s, e, h⟩
    have hc := a2.1 ⟨s, e⟩
    refine ⟨hc, h.imp_right fun e' => ⟨b2.1 ⟨_, e'⟩, ?_⟩⟩
    rintro rfl
    rw [e] at e'
    cases s <;> cases e'
  · rintro ⟨hc, h⟩
    obtain ⟨s, e, hs⟩ := logOddsToF_certain (T := T) hc
    refine ⟨s, e, h.imp_right fun ⟨hc', hne⟩ => ?_⟩
    obtain ⟨r, e', hr⟩ := logOddsToF_certain (T := T) hc'
    rw [e']
    rcases hc with rfl | rfl <;> rcases hc' with rfl | rfl <;> simp_all

/-- **C118** (certain observations). With certain hits, or certain misses that occurred, the occupancy is exactly the certain probability unless it is NaN; however many other observations there are. -/
theorem C118_certain (hT : T = .single ∨ T = .double) (X : ExpFn) (prior free occ : ℝ) (hprior : InFormat T prior) (hfree : InFormat T free) (hocc : InFormat T occ)
    (p0 : 0 < prior) (p1 : prior < 1) (f0 : 0 ≤ free) (f1 : free ≤ 1) (o0 : 0 ≤ occ) (o1 : occ ≤ 1) (h : List (OccOp Nat E)) (hs : ∀ op ∈ h, Substantial op)
    (hw : (OccOp.run h).numFree + (OccOp.run h).numOccupied < 2 ^ 64) (hn : (OccOp.run h).occupancyF T X (.mkF T prior free occ) ≠ .nan) (hpos : 0 < (OccOp.run h).numOccupied) :
    (Certain occ → (OccOp.run h).occupancyF T X (.mkF T prior free occ) = .fin occ) ∧ (Certain free → (OccOp.run h).occupancyF T X (.mkF T prior free occ) = .fin free) := by
  obtain ⟨_, l, hl, hlo, _⟩ := C118_log_odds hT hprior p0 p1
  obtain ⟨a1, a2⟩ := logOddsToF_value hT hfree f0 f1
  obtain ⟨b1, b2⟩ := logOddsToF_value hT hocc o0 o1
  have key := (C118_probabilities hT X prior free occ hprior hfree hocc p0 p1 f0 f1 o0 o1 h hs hw).not.1 hn
  have one : T.round (1 : ℝ) = .fin 1 := by
    have := (nearest_unit (K := ℝ) hT zero_le_one le_rfl).2.2.2
    rwa [nearest_one hT] at this
  -- an infinite evidence
  have final : ∀ {p : ℝ} {s : Bool}, Certain p → (s = true ↔ p = 0) → logOddsFromF T X (.inf s) = .fin p := by
    intro p s hc hsp
    rcases hc with rfl | rfl
    · rw [hsp.2 rfl]
      show T.sub (.fin 1) (T.recip (T.round (1 + 0))) = _
      rw [add_zero, one]
      show T.sub (.fin 1) (if (1 : ℝ) = 0 then _ else T.round (1 / 1)) = _
      rw [if_neg one_ne_zero, div_one, one]
      show T.round (1 + -1) = _
      rw [add_neg_cancel, (nearest_unit (K := ℝ) hT le_rfl zero_le_one).2.2.2, T.nearest_zero]
    · have : s = false := by cases s <;> simp_all
      rw [this]
      show T.round (1 + -0) = _
      rw [neg_zero, add_zero, one]
  obtain ⟨c1, c2, c3, c4, c5⟩ := count_round hT (show (OccOp.run h).numFree < 2 ^ 64 by omega)
  obtain ⟨d1, d2, d3, d4, d5⟩ := count_round hT (show (OccOp.run h).numOccupied < 2 ^ 64 by omega)
  obtain ⟨e1, e2, e3, _⟩ := count_round hT (wrap_lt (OccOp.run h).numFree (OccOp.run h).numOccupied)
  obtain ⟨r1, _⟩ := prod_fin hT ((abs_of_nonneg e2).trans_le e3) (ordinary_moderate hlo)
  have hinf : ∀ c : ℝ, 1 ≤ c → ∀ s, T.mul (.fin c) (.inf s) = (.inf s : Fl ℝ) := by
    intro c hc s
    unfold Format.mul
    simp only [Fl.mul]
    rw [if_neg (by linarith), decide_eq_false (by linarith)]
    cases s <;> rfl
  have mf : (OccOp.run h).numFree % 2 ^ 64 = (OccOp.run h).numFree := Nat.mod_eq_of_lt (by omega)
  have mn : (OccOp.run h).numOccupied % 2 ^ 64 = (OccOp.run h).numOccupied := Nat.mod_eq_of_lt (by omega)
  have ev : evidenceF T (.mkF T prior free occ) (OccOp.run h).numFree (OccOp.run h).numOccupied = T.sub (T.add (T.mul (.fin (toBits T.t ((OccOp.run h).numFree : ℝ))) (logOddsToF T free))
      (T.mul (.fin (toBits T.t ((OccOp.run h).numOccupied : ℝ))) (logOddsToF T occ))) (.fin (T.nearest (toBits T.t (wrapMinusOne (OccOp.run h).numFree (OccOp.run h).numOccupied : ℝ) * l))) := by
    unfold evidenceF
    rw [mf, mn, c1, d1, e1, show (IvmFl.mkF T prior free occ).logPrior = .fin l from hl, r1]
    rfl
  generalize T.nearest (toBits T.t (wrapMinusOne (OccOp.run h).numFree (OccOp.run h).numOccupied : ℝ) * l) = z at ev
  rw [(occupancyF_eq T X _ h hs).2 hpos, ev]
  have finite : ∀ {c : ℝ} {q : ℝ}, InFormat T q → 0 ≤ q → q ≤ 1 → ¬ Certain q → 0 ≤ c → c ≤ 2 ^ 64 → ∃ v, T.mul (.fin c) (logOddsToF T q) = .fin v := by
    intro c q hq q0 q1 hc hc0 hc1
    obtain ⟨_, l', hl', ho', _⟩ := C118_log_odds hT hq (lt_of_le_of_ne q0 fun h => hc (Or.inl h.symm)) (lt_of_le_of_ne q1 fun h => hc (Or.inr h))
    rw [hl']
    exact ⟨_, (prod_fin hT (by rwa [abs_of_nonneg hc0]) (ordinary_moderate ho')).1⟩
  constructor
  · intro hc
    obtain ⟨s, e, hsp⟩ := logOddsToF_certain (T := T) hc
    rw [e, hinf _ (d5 hpos)]
    by_cases hcf : Certain free
    · obtain ⟨r, e', hrp⟩ := logOddsToF_certain (T := T) hcf
      have hne : 0 < (OccOp.run h).numFree ∧ free = occ := by
        constructor
        · by_contra h0; exact key ⟨hpos, hcf, Or.inl (by omega)⟩
        · by_contra h0; exact key ⟨hpos, hcf, Or.inr ⟨hc, h0⟩⟩
      rw [hne.2, e, hinf _ (c5 hne.1)]
      have : T.sub (T.add (.inf s) (.inf s)) (.fin z) = .inf s := by cases s <;> rfl
      rw [this, final hc hsp]
    · obtain ⟨v, hv⟩ := finite hfree f0 f1 hcf c2 c3
      rw [hv]
      have : T.sub (T.add (.fin v) (.inf s)) (.fin z) = .inf s := by cases s <;> rfl
      rw [this, final hc hsp]
  · intro hc
    obtain ⟨s, e, hsp⟩ := logOddsToF_certain (T := T) hc
    have h0 : 0 < (OccOp.run h).numFree := by
      by_contra h0; exact key ⟨hpos, hc, Or.inl (by omega)⟩
    rw [e, hinf _ (c5 h0)]
    by_cases hco : Certain occ
    · have : free = occ := by by_contra h1; exact key ⟨hpos, hc, Or.inr ⟨hco, h1⟩⟩
      rw [← this, e, hinf _ (d5 hpos)]
      have : T.sub (T.add (.inf s) (.inf s)) (.fin z) = .inf s := by cases s <;> rfl
      rw [this, final hc hsp]
    · obtain ⟨v, hv⟩ := finite hocc o0 o1 hco d2 d3
      rw [hv]
      have : T.sub (T.add (.inf s) (.fin v)) (.fin z) = .inf s := by cases s <;> rfl
      rw [this, final hc hsp]

end probabilities

/-! ### Weighted distributions -/

section weights
variable {T : Format}

/-- **C118** (weights, range). Whatever weights are accumulated, infinite and NaN ones included, and whatever the log odds: the occupancy is NaN or a number of the scalar type from 0 to 1. -/
theorem C118_weighted_range (hT : T = .single ∨ T = .double) (X : ExpFn) (m : IvmFl) (o : WeightsF) : o.occupancy T X m = .nan ∨ UnitNumber T (o.occupancy T X m) := by
  unfold WeightsF.occupancy
  split
  · exact Or.inr (zero_unit T)
  · rename_i s _
    by_cases h : WeightsF.evidence T m o.free s = .nan
    · left; rw [h]; rfl
    · exact Or.inr (logOddsFromF_unit hT X h)

/-- **C118** (weights, no NaN). Non-negative weights of the scalar type whose sums stay below `2^60`, and log odds of moderate size: the occupancy is a number. -/
theorem C118_weighted_number (hT : T = .single ∨ T = .double) (ht : 1 ≤ T.t) (X : ExpFn) (m : Ivm) (hm : ModerateIvm m) (h : List Weights.Update) (hw : ∀ op ∈ h, InFormat T op.weight ∧ 0 ≤ op.weight)
    (hf : (Weights.run (ieee ℝ T.t ht) h).free ≤ 2 ^ 60) (ho : ∀ s, (Weights.run (ieee ℝ T.t ht) h).occupied = some s → s ≤ 2 ^ 60) :
    UnitNumber T ((WeightsF.run T (h.map updateFl)).occupancy T X (ivmFl m)) := by
  obtain ⟨r1, r2, r3, r4, _⟩ := WeightsF.run_fin hT ht h hw hf ho
  rw [r1]
  cases hc : (Weights.run (ieee ℝ T.t ht) h).occupied with
  | none => exact zero_unit T
  | some s =>
    obtain ⟨n1, n2⟩ := r4 s hc
    obtain ⟨x, hx⟩ := (WeightsF.evidence_fin hT ht (m := m) r2 n1 r3 n2 hf (ho s hc)).1 hm
    show UnitNumber T (logOddsFromF T X (WeightsF.evidence T (ivmFl m) (.fin _) (.fin s)))
    rw [hx]
    exact logOddsFromF_unit hT X (by simp)

/-- **C118** (weights, agreement). With ordinary log odds and weights that are 0 or at least `2^-60`: the weights and the occupancy are those of C88, where exponents are unbounded. -/
theorem C118_weighted_agrees (hT : T = .single ∨ T = .double) (ht : 1 ≤ T.t) (X : ExpFn) (hX : ExpBits T.t X) (m : Ivm) (hm : OrdinaryIvm m) (h : List Weights.Update) (hw : ∀ op ∈ h, OrdinaryWeight T op.weight)
    (hf : (Weights.run (ieee ℝ T.t ht) h).free ≤ 2 ^ 60) (ho : ∀ s, (Weights.run (ieee ℝ T.t ht) h).occupied = some s → s ≤ 2 ^ 60) :
    (WeightsF.run T (h.map updateFl)).free = .fin (Weights.run (ieee ℝ T.t ht) h).free ∧ (WeightsF.run T (h.map updateFl)).occupied = (Weights.run (ieee ℝ T.t ht) h).occupied.map .fin ∧
    (WeightsF.run T (h.map updateFl)).occupancy T X (ivmFl m) = .fin ((Weights.run (ieee ℝ T.t ht) h).occupancy (ieee ℝ T.t ht) X m) := by
  have hw0 : ∀ op ∈ h, InFormat T op.weight ∧ 0 ≤ op.weight := fun op hop => ⟨(hw op hop).1, by
    rcases (hw op hop).2 with h | h
    · exact h.ge
    · exact le_trans (by positivity) h⟩
  obtain ⟨r1, r2, r3, r4, r5⟩ := WeightsF.run_fin hT ht h hw0 hf ho
  obtain ⟨q1, q2⟩ := r5 fun op hop => (hw op hop).2
  rw [r1]
  refine ⟨rfl, rfl, ?_⟩
  unfold Weights.occupancy
  cases hc : (Weights.run (ieee ℝ T.t ht) h).occupied with
  | none => rfl
  | some s =>
    obtain ⟨n1, n2⟩ := r4 s hc
    have := (WeightsF.evidence_fin hT ht (m := m) r2 n1 r3 n2 hf (ho s hc)).2 hm q1 (q2 s hc)
    show logOddsFromF T X (WeightsF.evidence T (ivmFl m) (.fin _) (.fin s)) = _
    rw [this, logOddsFromF_fin hT ht X (hX _)]

end weights

/-! ### Samples of maps -/

/-- **C118** (samples). Samples of an occupancy map of `float` or `double`, with occupancies computed in that type, are numbers of it from 0 to 1, if the densities are. This discharges the assumption of C114 about occupancies. -/
theorem C118_samples {d : Nat} {E : Type} {T : Format} [Inhabited (Occ Nat E)] (k : Kind d) (exp : Occ Nat E → Bool) (st : St k.backend (Occ Nat E)) (hR : MapReachable k exp st) (hT : T = .single ∨ T = .double) (hdt : d ≤ T.t)
    (g : Geo ℝ d) (dens : Multiset E → Pt ℝ d → Fl ℝ) (hd : ∀ s q, UnitNumber T (dens s q)) (X : ExpFn) (m : Ivm) (hm : ModerateIvm m) (p : Pt ℝ d) (v : Fl ℝ) :
    (occSampleNNAtF T g k.dyn dens (fun m o => o.occupancyF T X (ivmFl m)) p (some m) st = .ok (some v) → UnitNumber T v) ∧
    (occSampleBilinearAtF T g k.dyn dens (fun m o => o.occupancyF T X (ivmFl m)) p (some m) st = .ok (some v) →
      ∃ x, v = .fin x ∧ 0 ≤ x ∧ x ≤ (1 + 2 ^ d * ((d + 1) * halfSmallest ℝ T)) * (1 + ((2 : ℝ) ^ T.t)⁻¹) ^ (2 ^ d + 2 * d + 2)) :=
  ⟨C114_occupancy_unit k exp st hR hT hdt g dens hd _ m (fun o => C118_number hT X m hm o) p v, C114_occupancy_bilinear k exp st hR hT hdt g dens hd _ m (fun o => C118_number hT X m hm o) p v⟩

/-! ### Samples: the hypotheses can be met -/

/-- the correctly rounded exponential function -/
noncomputable def ieeeExp (t : Nat) (ht : 1 ≤ t) : ExpFn where
  f x := toBits t (Real.exp x)
  e := ((2 : ℝ) ^ t)⁻¹
  nonneg := by positivity
  mono x y h := toBits_mono t ht _ _ (Real.exp_le_exp.2 h)
  pos x := toBits_nonneg t (Real.exp_pos x).le
  err x := by have := toBits_err t (Real.exp x); rwa [abs_of_pos (Real.exp_pos x)] at this

theorem ieeeExp_bits (t : Nat) (ht : 1 ≤ t) : ExpBits t (ieeeExp t ht) := fun x => (C77_ieee t ht (Real.exp x)).1

theorem quarters_inFormat {k : Int} (h : |k| < 2 ^ 24) : InFormat .single ((k : ℝ) / 4) := by
  refine ⟨⟨k, -2, h, by decide, ?_⟩, ?_⟩
  · rw [show (2 : ℝ) ^ (-2 : Int) = 1 / 4 by norm_num]; ring
  · rw [abs_div]
    have : |(k : ℝ)| < 2 ^ 24 := by exact_mod_cast h
    have e : (2 : ℝ) ^ Format.single.emax = 2 ^ 128 := by show (2 : ℝ) ^ (128 : Int) = _; norm_num
    rw [e, abs_of_pos (by norm_num : (0 : ℝ) < 4)]
    have : (2 : ℝ) ^ 24 ≤ 2 ^ 128 := pow_le_pow_right₀ one_le_two (by norm_num)
    have := abs_nonneg (k : ℝ)
    linarith

/-- two hits and a miss -/
def twoHits : List (OccOp Nat Nat) := [.point 0, .free 1, .point 1]

theorem twoHits_facts : (∀ op ∈ twoHits, Substantial op) ∧ (OccOp.run twoHits).numFree = 1 ∧ (OccOp.run twoHits).numOccupied = 2 := by
  refine ⟨fun op ho => ?_, rfl, ?_⟩
  · simp only [twoHits, List.mem_cons, List.not_mem_nil, or_false] at ho
    rcases ho with rfl | rfl | rfl <;> trivial
  · rw [(C21_counts _).2.2]; simp [twoHits, hitsOf]

/-- Probabilities 1/2, 1/4 and 3/4: the log odds are ordinary, the occupancy is the one with unbounded exponents. With the probability 0 for misses instead: exactly 0, as the miss is certain; and NaN without the miss. -/
theorem C118_sample :
    (∃ v, (OccOp.run twoHits).occupancyF .single (ieeeExp 24 float24) (.mkF .single (1 / 2) (1 / 4) (3 / 4)) = .fin v ∧
      v = (OccOp.run twoHits).occupancyR (ieee ℝ 24 float24) (ieeeExp 24 float24) ⟨0, toBits 24 (logit (1 / 4)), toBits 24 (logit (3 / 4))⟩) ∧
    (OccOp.run twoHits).occupancyF .single (ieeeExp 24 float24) (.mkF .single (1 / 2) 0 (3 / 4)) = .fin 0 ∧
    (OccOp.run ([.point 0] : List (OccOp Nat Nat))).occupancyF .single (ieeeExp 24 float24) (.mkF .single (1 / 2) 0 (3 / 4)) = .nan := by
  obtain ⟨s1, s2, s3⟩ := twoHits_facts
  have i1 : InFormat .single (1 / 2 : ℝ) := by have := quarters_inFormat (k := 2) (by norm_num); norm_num at this ⊢; exact this
  have i2 : InFormat .single (1 / 4 : ℝ) := by have := quarters_inFormat (k := 1) (by norm_num); norm_num at this ⊢; exact this
  have i3 : InFormat .single (3 / 4 : ℝ) := by have := quarters_inFormat (k := 3) (by norm_num); norm_num at this ⊢; exact this
  have i0 : InFormat .single (0 : ℝ) := by have := quarters_inFormat (k := 0) (by norm_num); norm_num at this ⊢; exact this
  obtain ⟨_, l1, a1, o1, e1⟩ := C118_log_odds (Or.inl rfl) i1 (by norm_num) (by norm_num)
  obtain ⟨_, l2, a2, o2, e2⟩ := C118_log_odds (Or.inl rfl) i2 (by norm_num) (by norm_num)
  obtain ⟨_, l3, a3, o3, e3⟩ := C118_log_odds (Or.inl rfl) i3 (by norm_num) (by norm_num)
  have z : logit (1 / 2) = 0 := by unfold logit; norm_num
  rw [z, toBits_zero] at e1
  refine ⟨⟨_, ?_, rfl⟩, ?_, ?_⟩
  · have := C118_agrees (Or.inl rfl) float24 (ieeeExp 24 float24) (ieeeExp_bits 24 float24) ⟨l1, l2, l3⟩ ⟨o1, o2, o3⟩ twoHits s1 (by rw [s2, s3]; norm_num)
    unfold IvmFl.mkF
    rw [a1, a2, a3]
    rw [show (ivmFl ⟨l1, l2, l3⟩ : IvmFl) = ⟨.fin l1, .fin l2, .fin l3⟩ from rfl] at this
    rw [this, e1, e2, e3]
    rfl
  · have hp : 0 < (OccOp.run twoHits).numOccupied := by rw [s3]; norm_num
    have hw : (OccOp.run twoHits).numFree + (OccOp.run twoHits).numOccupied < 2 ^ 64 := by rw [s2, s3]; norm_num
    refine (C118_certain (Or.inl rfl) (ieeeExp 24 float24) (1 / 2) 0 (3 / 4) i1 i0 i3 (by norm_num) (by norm_num) le_rfl zero_le_one (by norm_num) (by norm_num) twoHits s1 hw ?_ hp).2 (Or.inl rfl)
    intro hn
    obtain ⟨_, _, h | ⟨h, _⟩⟩ := (C118_probabilities (Or.inl rfl) (ieeeExp 24 float24) (1 / 2) 0 (3 / 4) i1 i0 i3 (by norm_num) (by norm_num) le_rfl zero_le_one (by norm_num) (by norm_num) twoHits s1 hw).1 hn
    · rw [s2] at h; exact one_ne_zero h
    · rcases h with h | h <;> norm_num at h
  · have n1 : (OccOp.run ([.point 0] : List (OccOp Nat Nat))).numOccupied = 1 := by rw [(C21_counts _).2.2]; simp [hitsOf]
    have n0 : (OccOp.run ([.point 0] : List (OccOp Nat Nat))).numFree = 0 := rfl
    refine (C118_probabilities (Or.inl rfl) (ieeeExp 24 float24) (1 / 2) 0 (3 / 4) i1 i0 i3 (by norm_num) (by norm_num) le_rfl zero_le_one (by norm_num) (by norm_num) [OccOp.point 0] (fun op ho => ?_) ?_).2 ?_
    · simp only [List.mem_cons, List.not_mem_nil, or_false] at ho; subst ho; trivial
    · rw [n0, n1]; norm_num
    · exact ⟨by rw [n1]; norm_num, Or.inl rfl, Or.inl n0⟩

/-- a history of weighted observations that meets the hypotheses of `C118_weighted_number` and `C118_weighted_agrees` -/
theorem C118_weighted_sample :
    let h : List Weights.Update := [.free (1 / 4), .hit (3 / 4), .free 1]
    (∀ op ∈ h, OrdinaryWeight .single op.weight) ∧ (Weights.run (ieee ℝ 24 float24) h).free ≤ 2 ^ 60 ∧ (∀ s, (Weights.run (ieee ℝ 24 float24) h).occupied = some s → s ≤ 2 ^ 60) ∧
    (WeightsF.run .single (h.map updateFl)).free = .fin (5 / 4) := by
  intro h
  have i1 : InFormat .single (1 / 4 : ℝ) := by have := quarters_inFormat (k := 1) (by norm_num); norm_num at this ⊢; exact this
  have i3 : InFormat .single (3 / 4 : ℝ) := by have := quarters_inFormat (k := 3) (by norm_num); norm_num at this ⊢; exact this
  have i4 : InFormat .single (1 : ℝ) := by have := quarters_inFormat (k := 4) (by norm_num); norm_num at this ⊢; exact this
  have i5 : InFormat .single (5 / 4 : ℝ) := by have := quarters_inFormat (k := 5) (by norm_num); norm_num at this ⊢; exact this
  have hw : ∀ op ∈ h, OrdinaryWeight .single op.weight := by
    intro op ho
    simp only [h, List.mem_cons, List.not_mem_nil, or_false] at ho
    rcases ho with rfl | rfl | rfl
    · exact ⟨i1, Or.inr (by show (1 : ℝ) / 2 ^ 60 ≤ 1 / 4; norm_num)⟩
    · exact ⟨i3, Or.inr (by show (1 : ℝ) / 2 ^ 60 ≤ 3 / 4; norm_num)⟩
    · exact ⟨i4, Or.inr (by show (1 : ℝ) / 2 ^ 60 ≤ 1; norm_num)⟩
  have hf : (Weights.run (ieee ℝ 24 float24) h).free = 5 / 4 := by
    show toBits 24 (toBits 24 (0 + 1 / 4) + 1) = 5 / 4
    rw [zero_add, show toBits 24 (1 / 4 : ℝ) = 1 / 4 from i1.toBits float24, show (1 / 4 : ℝ) + 1 = 5 / 4 by norm_num]
    exact i5.toBits float24
  have ho : (Weights.run (ieee ℝ 24 float24) h).occupied = some (3 / 4) := by
    show some (toBits 24 (0 + 3 / 4)) = _
    rw [zero_add, show toBits 24 (3 / 4 : ℝ) = 3 / 4 from i3.toBits float24]
  have hf' : (Weights.run (ieee ℝ 24 float24) h).free ≤ 2 ^ 60 := by rw [hf]; norm_num
  have ho' : ∀ s, (Weights.run (ieee ℝ 24 float24) h).occupied = some s → s ≤ 2 ^ 60 := fun s hs => by
    rw [ho, Option.some.injEq] at hs; rw [← hs]; norm_num
  refine ⟨hw, hf', ho', ?_⟩
  have := (C118_weighted_agrees (T := .single) (Or.inl rfl) float24 (ieeeExp 24 float24) (ieeeExp_bits 24 float24) ⟨0, 0, 0⟩ ⟨Or.inl rfl, Or.inl rfl, Or.inl rfl⟩ h hw hf' ho').1
  rw [this]
  exact congrArg _ hf

end Ndt
