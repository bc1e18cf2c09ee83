import Verif.Proofs.OccRounded
import Verif.Spec.OccRounded
import Mathlib.Analysis.Complex.ExponentialBounds

/-! Property theorem C88: occupancy values computed in floating point. -/

namespace Ndt
open Spec

section counts
variable {E : Type}

/-- **C88** (range). Whatever is recorded, with or without overflow of the counters, and for every inverse model: the computed occupancy is a probability. -/
theorem C88_range (R : Rounding ℝ) (h1 : R.rnd 1 = 1) (X : ExpFn) (m : Ivm) (h : List (OccOp Nat E)) :
    0 ≤ (OccOp.run h).occupancyR R X m ∧ (OccOp.run h).occupancyR R X m ≤ 1 := by
  unfold Occ.occupancyR
  split
  · exact ⟨le_rfl, zero_le_one⟩
  · exact logOddsFromR_mem R X h1 _

theorem occupancyR_eq (R : Rounding ℝ) (X : ExpFn) (m : Ivm) (h : List (OccOp Nat E)) (hs : ∀ op ∈ h, Substantial op) :
    ((OccOp.run h).numOccupied = 0 → (OccOp.run h).occupancyR R X m = 0) ∧
    (0 < (OccOp.run h).numOccupied → (OccOp.run h).occupancyR R X m = logOddsFromR R X (evidenceR R m (OccOp.run h).numFree (OccOp.run h).numOccupied)) := by
  obtain ⟨h1, h2⟩ := OccOp.run_data hs
  rw [Occ.numOccupied_eq]
  unfold Occ.occupancyR
  constructor
  · intro e
    rw [h1 (Multiset.card_eq_zero.1 e)]
  · intro e
    rw [h2 (Multiset.card_pos.1 e)]
    rfl

/-- **C88** (hits). If hits do not speak against occupancy and the prior probability is at most 1/2, more hits never lower the computed occupancy. Missing: other priors (see `C88_miss_refuted` for the analogous failure). -/
theorem C88_hit_partial (R : Rounding ℝ) (h1 : R.rnd 1 = 1) (X : ExpFn) (m : Ivm) (ho : 0 ≤ m.logOcc) (hp : m.logPrior ≤ 0) (h h' : List (OccOp Nat E))
    (hs : ∀ op ∈ h, Substantial op) (hs' : ∀ op ∈ h', Substantial op) (hf : (OccOp.run h).numFree = (OccOp.run h').numFree)
    (hn : (OccOp.run h).numOccupied ≤ (OccOp.run h').numOccupied) (hw : (OccOp.run h').numFree + (OccOp.run h').numOccupied ≤ 2 ^ 64) :
    (OccOp.run h).occupancyR R X m ≤ (OccOp.run h').occupancyR R X m := by
  rcases Nat.eq_zero_or_pos (OccOp.run h).numOccupied with e | e
  · rw [(occupancyR_eq R X m h hs).1 e]; exact (C88_range R h1 X m h').1
  · rw [(occupancyR_eq R X m h hs).2 e, (occupancyR_eq R X m h' hs').2 (by omega), hf]
    exact logOddsFromR_mono R X h1 (evidenceR_hits R m ho hp e hn hw)

/-- **C88** (misses). If misses do not speak for occupancy and the prior probability is at least 1/2, more misses never raise the computed occupancy. Missing: smaller priors, for which it is false (`C88_miss_refuted`). -/
theorem C88_miss_partial (R : Rounding ℝ) (h1 : R.rnd 1 = 1) (X : ExpFn) (m : Ivm) (hl : m.logFree ≤ 0) (hp : 0 ≤ m.logPrior) (h h' : List (OccOp Nat E))
    (hs : ∀ op ∈ h, Substantial op) (hs' : ∀ op ∈ h', Substantial op) (hf : (OccOp.run h).numFree ≤ (OccOp.run h').numFree)
    (hn : (OccOp.run h).numOccupied = (OccOp.run h').numOccupied) (hw : (OccOp.run h').numFree + (OccOp.run h').numOccupied ≤ 2 ^ 64) :
    (OccOp.run h').occupancyR R X m ≤ (OccOp.run h).occupancyR R X m := by
  rcases Nat.eq_zero_or_pos (OccOp.run h).numOccupied with e | e
  · rw [(occupancyR_eq R X m h' hs').1 (by omega)]; exact (C88_range R h1 X m h).1
  · rw [(occupancyR_eq R X m h hs).2 e, (occupancyR_eq R X m h' hs').2 (by omega), ← hn]
    exact logOddsFromR_mono R X h1 (evidenceR_misses R m hl hp e hf (by omega))

/-- **C88** (error). The computed occupancy differs from the exact one (C21) by at most a quarter of the error of the evidence, which is four roundings relative to its magnitude, and a few roundings. -/
theorem C88_error (R : Rounding ℝ) (h1 : R.rnd 1 = 1) (hu : R.u ≤ 1 / 8) (X : ExpFn) (he : X.e ≤ 1 / 8) (m : Ivm) (h : List (OccOp Nat E)) (hs : ∀ op ∈ h, Substantial op)
    (hw : (OccOp.run h).numFree + (OccOp.run h).numOccupied ≤ 2 ^ 64) :
    |(OccOp.run h).occupancyR R X m - (OccOp.run h).occupancy m| ≤
      1 / 4 * (((1 + R.u) ^ 4 - 1) * magnitude m (OccOp.run h).numFree (OccOp.run h).numOccupied) + 4 * (R.u + X.e) := by
  have hu0 := R.nonneg
  have he0 := X.nonneg
  have hM : 0 ≤ magnitude m (OccOp.run h).numFree (OccOp.run h).numOccupied := by unfold magnitude; positivity
  have hp : 0 ≤ (1 + R.u) ^ 4 - 1 := sub_nonneg.2 (one_le_pow₀ (by linarith))
  rcases Nat.eq_zero_or_pos (OccOp.run h).numOccupied with e | e
  · rw [(occupancyR_eq R X m h hs).1 e, (C21_range h hs m).1 e, sub_zero, abs_zero]
    positivity
  · have hv := occupancyR_eq R X m h hs
    have hx : (OccOp.run h).occupancy m = logOddsFrom (((OccOp.run h).numFree : ℝ) * m.logFree + ((OccOp.run h).numOccupied : ℝ) * m.logOcc -
        (wrapMinusOne (OccOp.run h).numFree (OccOp.run h).numOccupied : ℝ) * m.logPrior) := by
      rw [C21_depends_only_on_counts h hs m hw, wrapMinusOne_eq e hw, Nat.cast_sub (by omega)]
      unfold occupancySpec logOddsFrom
      rw [if_neg (by omega)]
      push_cast
      rfl
    rw [hv.2 e, hx]
    have a1 := evidenceR_err R m (OccOp.run h).numFree (OccOp.run h).numOccupied
    have a2 := logOddsFromR_err R X h1 hu he (evidenceR R m (OccOp.run h).numFree (OccOp.run h).numOccupied)
    have a3 := logOddsFrom_lipschitz (evidenceR R m (OccOp.run h).numFree (OccOp.run h).numOccupied) (((OccOp.run h).numFree : ℝ) * m.logFree +
      ((OccOp.run h).numOccupied : ℝ) * m.logOcc - (wrapMinusOne (OccOp.run h).numFree (OccOp.run h).numOccupied : ℝ) * m.logPrior)
    have a4 : |((OccOp.run h).numFree : ℝ) * m.logFree| + |((OccOp.run h).numOccupied : ℝ) * m.logOcc| +
        |(wrapMinusOne (OccOp.run h).numFree (OccOp.run h).numOccupied : ℝ) * m.logPrior| ≤ magnitude m (OccOp.run h).numFree (OccOp.run h).numOccupied := by
      unfold magnitude
      rw [abs_mul (wrapMinusOne _ _ : ℝ), abs_of_nonneg (show (0 : ℝ) ≤ (wrapMinusOne (OccOp.run h).numFree (OccOp.run h).numOccupied : ℝ) from Nat.cast_nonneg _)]
      have : (wrapMinusOne (OccOp.run h).numFree (OccOp.run h).numOccupied : ℝ) ≤ (OccOp.run h).numFree + (OccOp.run h).numOccupied + 1 := by
        rw [wrapMinusOne_eq e hw]
        have : (OccOp.run h).numFree + (OccOp.run h).numOccupied - 1 ≤ (OccOp.run h).numFree + (OccOp.run h).numOccupied + 1 := by omega
        exact_mod_cast this
      have := mul_le_mul_of_nonneg_right this (abs_nonneg m.logPrior)
      linarith
    have a5 := mul_le_mul_of_nonneg_left a4 hp
    have a6 := abs_sub_le (logOddsFromR R X (evidenceR R m (OccOp.run h).numFree (OccOp.run h).numOccupied)) (logOddsFrom (evidenceR R m (OccOp.run h).numFree (OccOp.run h).numOccupied))
      (logOddsFrom (((OccOp.run h).numFree : ℝ) * m.logFree + ((OccOp.run h).numOccupied : ℝ) * m.logOcc -
        (wrapMinusOne (OccOp.run h).numFree (OccOp.run h).numOccupied : ℝ) * m.logPrior))
    linarith

end counts

/-! ### Refutation: a miss raises the occupancy -/

theorem float24 : 1 ≤ 24 := by norm_num

/-- the inverse model with the probabilities 0.3 (prior), 0.2 (free) and 0.7 (occupied), log odds as floats -/
noncomputable def model30 : Ivm := ⟨((-14215299 / 16777216 : ℚ) : ℝ), ((-1453635 / 1048576 : ℚ) : ℝ), ((14215299 / 16777216 : ℚ) : ℝ)⟩

/-- the computation of the evidence on rationals -/
def evidenceQ (free occupied : Nat) : ℚ :=
  toBits 24 (toBits 24 (toBits 24 (toBits 24 (free : ℚ) * (-1453635 / 1048576)) + toBits 24 (toBits 24 (occupied : ℚ) * (14215299 / 16777216))) -
    toBits 24 (toBits 24 (wrapMinusOne free occupied : ℚ) * (-14215299 / 16777216)))

theorem evidenceR_model30 (f n : Nat) : evidenceR (ieee ℝ 24 float24) model30 f n = ((evidenceQ f n : ℚ) : ℝ) := by
  have hc : ∀ k : Nat, ((ieee ℝ 24 float24).rnd (k : ℝ)) = ((toBits 24 (k : ℚ) : ℚ) : ℝ) := fun k => by
    rw [← toBits_cast]; simp [ieee]
  have hr : ∀ q : ℚ, (ieee ℝ 24 float24).rnd (q : ℝ) = ((toBits 24 q : ℚ) : ℝ) := fun q => toBits_cast 24 q
  unfold evidenceR evidenceQ model30
  simp only [hc, ← Rat.cast_mul, hr, ← Rat.cast_add, ← Rat.cast_sub]

theorem evidence_before : evidenceQ 8792351 2796565 = -1 := by decide +kernel
theorem evidence_after : evidenceQ 8792352 2796565 = 0 := by decide +kernel

theorem model30_ordered : model30.logFree < model30.logPrior ∧ model30.logPrior < model30.logOcc := by
  unfold model30; constructor <;> norm_num

theorem logOddsFrom_values : logOddsFrom 0 = 1 / 2 ∧ logOddsFrom (-1) < 3 / 10 := by
  constructor
  · unfold logOddsFrom; norm_num
  · unfold logOddsFrom
    have h := Real.exp_one_gt_d9
    rw [Real.exp_neg]
    have : (Real.exp 1)⁻¹ < 3 / 7 := by
      rw [inv_lt_comm₀ (Real.exp_pos 1) (by norm_num)]; norm_num; linarith
    have h2 : 0 < (Real.exp 1)⁻¹ := by positivity
    rw [sub_lt_iff_lt_add, ← sub_lt_iff_lt_add', lt_div_iff₀ (by linarith)]
    linarith

/-- **C88 is false for misses.** A distribution of floats with the prior probability 0.3, the probability 0.2 for misses and 0.7 for hits has seen 2796565 hits and 8792351 misses. One more miss raises its occupancy from below 0.35 to more than 0.45. -/
theorem C88_miss_refuted {E : Type} (X : ExpFn) (he : X.e ≤ 1 / 100) (x : E) :
    let h : List (OccOp Nat E) := [.dist (Multiset.replicate 2796565 x), .free 8792351]
    (∀ op ∈ h, Substantial op) ∧ model30.logFree < model30.logPrior ∧ model30.logPrior < model30.logOcc ∧
    (OccOp.run h).occupancyR (ieee ℝ 24 float24) X model30 < 35 / 100 ∧
    45 / 100 < (OccOp.run (h ++ [.free 1])).occupancyR (ieee ℝ 24 float24) X model30 := by
  intro h
  have hone : (ieee ℝ 24 float24).rnd 1 = 1 := toBits_one 24 float24
  have hu : (ieee ℝ 24 float24).u ≤ 1 / 1000 := by
    show ((2 : ℝ) ^ 24)⁻¹ ≤ _
    norm_num
  have hne : Multiset.replicate 2796565 x ≠ 0 := by
    rw [← Multiset.card_pos, Multiset.card_replicate]; norm_num
  refine ⟨?_, model30_ordered.1, model30_ordered.2, ?_, ?_⟩
  · intro op ho
    simp only [h, List.mem_cons, List.not_mem_nil, or_false] at ho
    rcases ho with rfl | rfl
    · exact hne
    · trivial
  · have e : (OccOp.run h).occupancyR (ieee ℝ 24 float24) X model30 = logOddsFromR (ieee ℝ 24 float24) X (evidenceR (ieee ℝ 24 float24) model30 8792351 2796565) := by
      simp only [h, OccOp.run, List.foldl, OccOp.step, Occ.new, Occ.updateOccupied, Occ.updateFree, Occ.occupancyR, Multiset.card_replicate, Nat.zero_add]
    rw [e, evidenceR_model30, evidence_before]
    have b := (abs_le.1 (logOddsFromR_err (ieee ℝ 24 float24) X hone (by linarith) (by linarith) ((-1 : ℚ) : ℝ))).2
    rw [show (((-1 : ℚ)) : ℝ) = -1 by norm_num] at b ⊢
    have := logOddsFrom_values.2
    linarith
  · have e : (OccOp.run (h ++ [.free 1])).occupancyR (ieee ℝ 24 float24) X model30 = logOddsFromR (ieee ℝ 24 float24) X (evidenceR (ieee ℝ 24 float24) model30 8792352 2796565) := by
      simp only [h, List.cons_append, List.nil_append, OccOp.run, List.foldl, OccOp.step, Occ.new, Occ.updateOccupied, Occ.updateFree, Occ.occupancyR, Multiset.card_replicate, Nat.zero_add]
    rw [e, evidenceR_model30, evidence_after]
    have b := (abs_le.1 (logOddsFromR_err (ieee ℝ 24 float24) X hone (by linarith) (by linarith) ((0 : ℚ) : ℝ))).1
    rw [show (((0 : ℚ)) : ℝ) = 0 by norm_num] at b ⊢
    have := logOddsFrom_values.1
    linarith

/-! ### Weighted distributions -/

namespace Weights

/-- **C88** (weighted, range). -/
theorem C88_weighted_range (R : Rounding ℝ) (h1 : R.rnd 1 = 1) (X : ExpFn) (m : Ivm) (h : List Update) : 0 ≤ (run R h).occupancy R X m ∧ (run R h).occupancy R X m ≤ 1 := by
  unfold occupancy
  split
  · exact ⟨le_rfl, zero_le_one⟩
  · exact logOddsFromR_mem R X h1 _

theorem run_append (R : Rounding ℝ) (h h' : List Update) : run R (h ++ h') = h'.foldl (step R) (run R h) := List.foldl_append

/-- Representable and non-negative contents. -/
def Ok (R : Rounding ℝ) (o : Weights) : Prop := (R.rnd o.free = o.free ∧ 0 ≤ o.free) ∧ ∀ w, o.occupied = some w → R.rnd w = w ∧ 0 ≤ w

theorem run_ok (R : Rounding ℝ) (hi : ∀ x, R.rnd (R.rnd x) = R.rnd x) (h : List Update) (hw : ∀ op ∈ h, 0 ≤ op.weight) : (run R h).Ok R := by
  induction h using List.reverseRecOn with
  | nil => exact ⟨⟨R.zero, le_rfl⟩, fun w hw => by simp [run, new] at hw⟩
  | append_singleton h op ih =>
    obtain ⟨⟨a1, a2⟩, a3⟩ := ih fun op ho => hw op (List.mem_append_left _ ho)
    have hw0 := hw op (by simp)
    rw [run_append]
    cases op with
    | free w => exact ⟨⟨hi _, R.rnd_nonneg (add_nonneg a2 hw0)⟩, a3⟩
    | hit w =>
      refine ⟨⟨a1, a2⟩, fun v hv => ?_⟩
      have hv' : some (R.rnd ((match (run R h).occupied with | none => 0 | some s => s) + w)) = some v := hv
      rw [← Option.some.inj hv']
      refine ⟨hi _, R.rnd_nonneg (add_nonneg ?_ hw0)⟩
      cases ho : (run R h).occupied with
      | none => exact le_rfl
      | some s => exact (a3 s ho).2

/-- **C88** (weighted, misses). After any history of observations with non-negative weights, one more miss never raises the computed occupancy, if misses do not speak for occupancy and the prior probability is at least 1/2. Missing: smaller
priors. -/
theorem C88_weighted_miss_partial (R : Rounding ℝ) (h1 : R.rnd 1 = 1) (hi : ∀ x, R.rnd (R.rnd x) = R.rnd x) (X : ExpFn) (m : Ivm) (hl : m.logFree ≤ 0) (hp : 0 ≤ m.logPrior)
    (h : List Update) (hw : ∀ op ∈ h, 0 ≤ op.weight) (w : ℝ) (hw0 : 0 ≤ w) : (run R (h ++ [.free w])).occupancy R X m ≤ (run R h).occupancy R X m := by
  obtain ⟨⟨a1, a2⟩, a3⟩ := run_ok R hi h hw
  rw [run_append]
  have hle : (run R h).free ≤ R.rnd ((run R h).free + w) := by
    have := R.mono (run R h).free ((run R h).free + w) (by linarith)
    rwa [a1] at this
  show occupancy R X m ((run R h).updateFree R w) ≤ _
  unfold occupancy updateFree
  cases ho : (run R h).occupied with
  | none => exact le_rfl
  | some s =>
    apply logOddsFromR_mono R X h1
    unfold evidence
    apply R.mono
    apply sub_le_sub
    · exact R.mono _ _ (add_le_add (R.mono _ _ (mul_le_mul_of_nonpos_right hle hl)) le_rfl)
    · exact R.mono _ _ (mul_le_mul_of_nonneg_right (R.mono _ _ (sub_le_sub_right (R.mono _ _ (add_le_add hle le_rfl)) _)) hp)

/-- **C88** (weighted, hits). After any history of observations with non-negative weights, one more hit never lowers the computed occupancy, if hits do not speak against occupancy and the prior probability is at most 1/2. Missing: other priors. -/
theorem C88_weighted_hit_partial (R : Rounding ℝ) (h1 : R.rnd 1 = 1) (hi : ∀ x, R.rnd (R.rnd x) = R.rnd x) (X : ExpFn) (m : Ivm) (hl : 0 ≤ m.logOcc) (hp : m.logPrior ≤ 0)
    (h : List Update) (hw : ∀ op ∈ h, 0 ≤ op.weight) (w : ℝ) (hw0 : 0 ≤ w) : (run R h).occupancy R X m ≤ (run R (h ++ [.hit w])).occupancy R X m := by
  obtain ⟨⟨a1, a2⟩, a3⟩ := run_ok R hi h hw
  cases ho : (run R h).occupied with
  | none =>
    have : (run R h).occupancy R X m = 0 := by unfold occupancy; rw [ho]
    rw [this]
    exact (C88_weighted_range R h1 X m _).1
  | some s =>
    rw [run_append]
    have hle : s ≤ R.rnd (s + w) := by
      have := R.mono s (s + w) (by linarith)
      rwa [(a3 s ho).1] at this
    show _ ≤ occupancy R X m ((run R h).updateOccupied R w)
    unfold occupancy updateOccupied
    simp only [ho]
    apply logOddsFromR_mono R X h1
    unfold evidence
    apply R.mono
    apply sub_le_sub
    · exact R.mono _ _ (add_le_add le_rfl (R.mono _ _ (mul_le_mul_of_nonneg_right hle hl)))
    · exact R.mono _ _ (mul_le_mul_of_nonpos_right (R.mono _ _ (sub_le_sub_right (R.mono _ _ (add_le_add le_rfl hle)) _)) hp)

/-- **C88** (weights). After a history of `n` observations with non-negative weights the recorded weights are the exact totals up to `n` roundings. -/
theorem C88_weights_error (R : Rounding ℝ) (h : List Update) (hw : ∀ op ∈ h, 0 ≤ op.weight) :
    |(run R h).free - (h.map missWeight).sum| ≤ ((1 + R.u) ^ h.length - 1) * (h.map missWeight).sum ∧
    |(run R h).occupied.getD 0 - (h.map hitWeight).sum| ≤ ((1 + R.u) ^ h.length - 1) * (h.map hitWeight).sum ∧
    ((run R h).occupied = none ↔ ∀ op ∈ h, ∀ w, op ≠ .hit w) := by
  have hu := R.nonneg
  induction h using List.reverseRecOn with
  | nil => simp [run, new]
  | append_singleton h op ih =>
    obtain ⟨b1, b2, b3⟩ := ih fun op ho => hw op (List.mem_append_left _ ho)
    have hw0 := hw op (by simp)
    have nn : ∀ f : Update → ℝ, (∀ op : Update, 0 ≤ op.weight → 0 ≤ f op) → 0 ≤ (h.map f).sum := fun f hf =>
      List.sum_nonneg fun x hx => by
        obtain ⟨o, ho, rfl⟩ := List.mem_map.1 hx
        exact hf o (hw o (List.mem_append_left _ ho))
    have n1 := nn missWeight fun op ho => by cases op with | free w => exact ho | hit w => exact le_rfl
    have n2 := nn hitWeight fun op ho => by cases op with | free w => exact le_rfl | hit w => exact ho
    have key : ∀ {a s w : ℝ}, 0 ≤ s → 0 ≤ w → |a - s| ≤ ((1 + R.u) ^ h.length - 1) * s → |R.rnd (a + w) - (s + w)| ≤ ((1 + R.u) ^ (h.length + 1) - 1) * (s + w) := by
      intro a s w hs hw' ha
      have hk : 0 ≤ (1 + R.u) ^ h.length - 1 := sub_nonneg.2 (one_le_pow₀ (by linarith))
      have := R.err_step (x := a + w) (y := s + w) (A := s + w) (a := (1 + R.u) ^ h.length - 1) (by
        rw [add_sub_add_right_eq_sub]; exact ha.trans (mul_le_mul_of_nonneg_left (by linarith) hk)) (le_of_eq (abs_of_nonneg (by linarith)))
      rwa [show (1 + R.u) * (1 + ((1 + R.u) ^ h.length - 1)) = (1 + R.u) ^ (h.length + 1) by ring] at this
    have keep : ∀ {a s : ℝ}, 0 ≤ s → |a - s| ≤ ((1 + R.u) ^ h.length - 1) * s → |a - s| ≤ ((1 + R.u) ^ (h.length + 1) - 1) * s := fun hs ha =>
      pow_mono_err hu (Nat.le_succ _) hs ha
    rw [run_append]
    simp only [List.map_append, List.map_cons, List.map_nil, List.sum_append, List.sum_cons, List.sum_nil, add_zero, List.length_append, List.length_cons, List.length_nil, Nat.zero_add]
    cases op with
    | free w =>
      refine ⟨key n1 hw0 b1, ?_, ?_⟩
      · simp only [hitWeight, add_zero]
        exact keep n2 b2
      · show (run R h).occupied = none ↔ _
        rw [b3]
        constructor
        · intro ha op ho v
          rcases List.mem_append.1 ho with ho | ho
          · exact ha op ho v
          · rw [List.mem_singleton.1 ho]; simp
        · exact fun ha op ho => ha op (List.mem_append_left _ ho)
    | hit w =>
      refine ⟨?_, ?_, ?_⟩
      · simp only [missWeight, add_zero]
        exact keep n1 b1
      · have : ((run R h).updateOccupied R w).occupied.getD 0 = R.rnd ((run R h).occupied.getD 0 + w) := by
          unfold updateOccupied
          cases (run R h).occupied <;> rfl
        show |((run R h).updateOccupied R w).occupied.getD 0 - _| ≤ _
        rw [this]
        exact key n2 hw0 b2
      · constructor
        · intro ha; exact absurd ha (by simp [List.foldl, step, updateOccupied])
        · intro ha; exact absurd rfl (ha (.hit w) (by simp) w)

theorem weighted_evidence_err (R : Rounding ℝ) (m : Ivm) (f w : ℝ) (hf : 0 ≤ f) (hw : 0 ≤ w) :
    |evidence R m f w - Spec.evidence m f w| ≤ ((1 + R.u) ^ 4 - 1) * magnitude m f w := by
  have hu0 := R.nonneg
  have p1 : ∀ a b : ℝ, |R.rnd (a * b) - a * b| ≤ ((1 + R.u) ^ 2 - 1) * |a * b| := fun a b =>
    pow_mono_err hu0 (show 1 ≤ 2 by norm_num) (abs_nonneg _) (by have := R.err (a * b); rwa [pow_one, add_sub_cancel_left])
  have c1 : |R.rnd (f + w) - (f + w)| ≤ R.u * (f + w + 1) := by
    have := R.err (f + w)
    rw [abs_of_nonneg (show (0 : ℝ) ≤ f + w by linarith)] at this
    nlinarith
  have c2 : |R.rnd (R.rnd (f + w) - 1) - (f + w - 1)| ≤ ((1 + R.u) * (1 + R.u) - 1) * (f + w + 1) :=
    R.err_step (by rw [sub_sub_sub_cancel_right]; exact c1) (by rw [abs_le]; constructor <;> linarith)
  have c3 : |R.rnd (R.rnd (R.rnd (f + w) - 1) * m.logPrior) - (f + w - 1) * m.logPrior| ≤ ((1 + R.u) * (1 + ((1 + R.u) * (1 + R.u) - 1)) - 1) * ((f + w + 1) * |m.logPrior|) := by
    apply R.err_step
    · rw [← sub_mul, abs_mul, ← mul_assoc]
      exact mul_le_mul_of_nonneg_right c2 (abs_nonneg _)
    · rw [abs_mul]
      exact mul_le_mul_of_nonneg_right (by rw [abs_le]; constructor <;> linarith) (abs_nonneg _)
  have a1 := evidence_err_core R rfl (f * m.logFree) (w * m.logOcc) ((f + w - 1) * m.logPrior) ((1 + R.u) ^ 2 - 1) le_rfl le_rfl
    (C := (f + w + 1) * |m.logPrior|) (by
      rw [abs_mul]
      exact mul_le_mul_of_nonneg_right (by rw [abs_le]; constructor <;> linarith) (abs_nonneg _)) (p1 _ _) (p1 _ _)
    (c' := R.rnd (R.rnd (R.rnd (f + w) - 1) * m.logPrior)) (by
      rw [show (1 + R.u) * (1 + ((1 + R.u) ^ 2 - 1)) - 1 = (1 + R.u) * (1 + ((1 + R.u) * (1 + R.u) - 1)) - 1 by ring]; exact c3)
  rw [show (1 + R.u) * ((1 + R.u) * (1 + ((1 + R.u) ^ 2 - 1))) - 1 = (1 + R.u) ^ 4 - 1 by ring] at a1
  exact a1

/-- **C88** (weighted, error). The occupancy computed from given weights differs from the exact one by at most a quarter of the error of the evidence and a few roundings. -/
theorem C88_weighted_error (R : Rounding ℝ) (h1 : R.rnd 1 = 1) (hu : R.u ≤ 1 / 8) (X : ExpFn) (he : X.e ≤ 1 / 8) (m : Ivm) (f w : ℝ) (hf : 0 ≤ f) (hw : 0 ≤ w) :
    |(Weights.mk f (some w)).occupancy R X m - (1 - 1 / (1 + Real.exp (Spec.evidence m f w)))| ≤ 1 / 4 * (((1 + R.u) ^ 4 - 1) * magnitude m f w) + 4 * (R.u + X.e) := by
  have hu0 := R.nonneg
  show |logOddsFromR R X (evidence R m f w) - logOddsFrom (Spec.evidence m f w)| ≤ _
  have a2 := logOddsFromR_err R X h1 hu he (evidence R m f w)
  have a3 := logOddsFrom_lipschitz (evidence R m f w) (Spec.evidence m f w)
  have a6 := abs_sub_le (logOddsFromR R X (evidence R m f w)) (logOddsFrom (evidence R m f w)) (logOddsFrom (Spec.evidence m f w))
  have a1' := weighted_evidence_err R m f w hf hw
  linarith

/-- the tie at the end of the range of consecutive integers -/
theorem toBits_tie (t : Nat) (ht : 2 ≤ t) : toBits t ((2 : ℝ) ^ t + 1) = (2 : ℝ) ^ t := by
  have h2 : (2 : ℝ) ≤ 2 ^ t := by
    calc (2 : ℝ) = 2 ^ 1 := (pow_one _).symm
      _ ≤ 2 ^ t := pow_le_pow_right₀ (by norm_num) (by omega)
  have hpos : (0 : ℝ) < 2 ^ t + 1 := by positivity
  have hlog : Int.log 2 |(2 : ℝ) ^ t + 1| = t := by
    rw [abs_of_pos hpos]
    apply le_antisymm
    · have : Int.log 2 ((2 : ℝ) ^ t + 1) < (t : Int) + 1 := by
        rw [← Int.lt_zpow_iff_log_lt one_lt_two hpos]
        have : ((2 : ℕ) : ℝ) ^ ((t : Int) + 1) = 2 ^ t * 2 := by
          rw [zpow_add₀ (by norm_num), zpow_natCast]; norm_num
        rw [this]; linarith
      omega
    · rw [← Int.zpow_le_iff_le_log one_lt_two hpos, zpow_natCast]
      push_cast; linarith
  have hl : lastBit t ((2 : ℝ) ^ t + 1) = 2 := by
    unfold lastBit
    rw [hlog, show (t : Int) + 1 - t = 1 by ring, zpow_one]
  obtain ⟨k, rfl⟩ : ∃ k, t = k + 2 := ⟨t - 2, by omega⟩
  unfold toBits
  rw [if_neg (not_lt.2 hpos.le), hl]
  have hdiv : ((2 : ℝ) ^ (k + 2) + 1) / 2 = (((2 : Int) ^ (k + 1) : Int) : ℝ) + 1 / 2 := by push_cast; ring
  rw [hdiv]
  have hfl : ⌊(((2 : Int) ^ (k + 1) : Int) : ℝ) + 1 / 2⌋ = (2 : Int) ^ (k + 1) := by
    rw [Int.floor_intCast_add]
    have : ⌊(1 / 2 : ℝ)⌋ = 0 := by norm_num
    omega
  unfold nearestEven
  rw [hfl, if_neg (by rw [add_sub_cancel_left]; norm_num), if_neg (by rw [add_sub_cancel_left]; norm_num), if_pos (by rw [pow_succ]; omega)]
  push_cast
  ring

/-- **C88** (weights are not counters). With `t` significant bits, `n` misses of weight 1 are recorded as the weight `min n 2^t`, exactly. -/
theorem C88_free_weight_partial (t : Nat) (ht : 2 ≤ t) (n : Nat) : (run (ieee ℝ t (by omega)) (List.replicate n (.free 1))).free = ((min n (2 ^ t) : Nat) : ℝ) := by
  induction n with
  | zero => simp [run, new]
  | succ n ih =>
    rw [List.replicate_succ', run_append]
    show toBits t ((run (ieee ℝ t _) (List.replicate n (.free 1))).free + 1) = _
    rw [ih]
    rcases lt_trichotomy (n + 1) (2 ^ t) with h | h | h
    · rw [min_eq_left (by omega), min_eq_left h.le]
      have := toBits_small (K := ℝ) t (n + 1) h
      push_cast at this ⊢
      exact this
    · rw [min_eq_left (by omega), min_eq_left h.le]
      have := toBits_two_pow (K := ℝ) t (by omega) t
      rw [zpow_natCast] at this
      have e : ((n : ℝ) + 1) = 2 ^ t := by exact_mod_cast h
      push_cast
      rw [e, this]
    · rw [min_eq_right (by omega), min_eq_right h.le]
      push_cast
      exact toBits_tie t ht

/-- **C88 is false for misses in weighted maps.** From 2^24 misses on, the free weight of a distribution of floats does not grow any more: the 16777217th miss and all later ones are lost, and the occupancy stays what it is, for every inverse
model. -/
theorem C88_lost_misses_refuted (X : ExpFn) (m : Ivm) (n : Nat) (hn : 2 ^ 24 ≤ n) (w : ℝ) :
    let h : List Update := List.replicate n (.free 1)
    (run (ieee ℝ 24 float24) (h ++ [.free 1])).free = (run (ieee ℝ 24 float24) h).free ∧ (run (ieee ℝ 24 float24) h).free = 2 ^ 24 ∧
    (run (ieee ℝ 24 float24) (h ++ [.hit w])).occupancy (ieee ℝ 24 float24) X m = (run (ieee ℝ 24 float24) (h ++ [.free 1] ++ [.hit w])).occupancy (ieee ℝ 24 float24) X m := by
  intro h
  have a := C88_free_weight_partial 24 (by norm_num) n
  have b := C88_free_weight_partial 24 (by norm_num) (n + 1)
  rw [List.replicate_succ'] at b
  have hab : (run (ieee ℝ 24 float24) (h ++ [.free 1])).free = (run (ieee ℝ 24 float24) h).free := by
    show _ = (run (ieee ℝ 24 float24) (List.replicate n (.free 1))).free
    rw [a]
    refine b.trans ?_
    rw [min_eq_right hn, min_eq_right (by omega)]
  have hstep : run (ieee ℝ 24 float24) (h ++ [.free 1]) = run (ieee ℝ 24 float24) h := by
    have : run (ieee ℝ 24 float24) (h ++ [.free 1]) = { run (ieee ℝ 24 float24) h with free := (run (ieee ℝ 24 float24) (h ++ [.free 1])).free } := by
      rw [run_append]; rfl
    rw [this, hab]
  refine ⟨hab, ?_, ?_⟩
  · rw [show (run (ieee ℝ 24 float24) h).free = _ from a, min_eq_right hn]; norm_num
  · have : run (ieee ℝ 24 float24) (h ++ [.free 1] ++ [.hit w]) = run (ieee ℝ 24 float24) (h ++ [.hit w]) := by
      rw [run_append _ (h ++ [Update.free 1]), hstep, ← run_append]
    rw [this]

/-- **C88 is false: the recorded weight depends on the order.** A heavy miss and two of weight 1, in two orders. -/
theorem C88_order_refuted :
    (run (ieee ℝ 24 float24) [.free (2 ^ 24), .free 1, .free 1]).free = 2 ^ 24 ∧ (run (ieee ℝ 24 float24) [.free 1, .free 1, .free (2 ^ 24)]).free = 2 ^ 24 + 2 := by
  have hr : ∀ q : ℚ, (ieee ℝ 24 float24).rnd (q : ℝ) = ((toBits 24 q : ℚ) : ℝ) := fun q => toBits_cast 24 q
  have c1 : toBits 24 (16777216 : ℚ) = 16777216 := by decide +kernel
  have c2 : toBits 24 (16777217 : ℚ) = 16777216 := by decide +kernel
  have c3 : toBits 24 (1 : ℚ) = 1 := by decide +kernel
  have c4 : toBits 24 (2 : ℚ) = 2 := by decide +kernel
  have c5 : toBits 24 (16777218 : ℚ) = 16777218 := by decide +kernel
  have d : ∀ {q q' : ℚ} {x y : ℝ}, toBits 24 q = q' → (x : ℝ) = q → (y : ℝ) = q' → (ieee ℝ 24 float24).rnd x = y := fun h hx hy => by rw [hx, hr, h, hy]
  constructor
  · show (ieee ℝ 24 float24).rnd ((ieee ℝ 24 float24).rnd ((ieee ℝ 24 float24).rnd (0 + 2 ^ 24) + 1) + 1) = _
    rw [d (x := 0 + 2 ^ 24) (y := 2 ^ 24) c1 (by norm_num) (by norm_num), d (x := 2 ^ 24 + 1) (y := 2 ^ 24) c2 (by norm_num) (by norm_num),
      d (x := 2 ^ 24 + 1) (y := 2 ^ 24) c2 (by norm_num) (by norm_num)]
  · show (ieee ℝ 24 float24).rnd ((ieee ℝ 24 float24).rnd ((ieee ℝ 24 float24).rnd (0 + 1) + 1) + 2 ^ 24) = _
    rw [d (x := 0 + 1) (y := 1) c3 (by norm_num) (by norm_num), d (x := 1 + 1) (y := 2) c4 (by norm_num) (by norm_num),
      d (x := 2 + 2 ^ 24) (y := 2 ^ 24 + 2) c5 (by norm_num) (by norm_num)]

end Weights

/-! ### Non-vacuity -/

/-- a correctly rounded exponential function -/
noncomputable def roundedExp (R : Rounding ℝ) : ExpFn where
  f x := R.rnd (Real.exp x)
  e := R.u
  nonneg := R.nonneg
  mono x y h := R.mono _ _ (Real.exp_le_exp.2 h)
  pos x := R.rnd_nonneg (Real.exp_pos x).le
  err x := by have := R.err (Real.exp x); rwa [abs_of_pos (Real.exp_pos x)] at this

/-- `float` and its correctly rounded exponential function satisfy the hypotheses on the arithmetic, with an inverse model with prior 1/2 the ones on the model, and a history with three hits and two misses those on the history. -/
example : let R := ieee ℝ 24 float24
    let m : Ivm := ⟨0, -1, 1⟩
    let h : List (OccOp Nat Nat) := [.point 1, .free 2, .dist {5, 6}]
    R.rnd 1 = 1 ∧ (∀ x, R.rnd (R.rnd x) = R.rnd x) ∧ R.u ≤ 1 / 100 ∧ (roundedExp R).e ≤ 1 / 100 ∧ m.logFree ≤ 0 ∧ 0 ≤ m.logOcc ∧ 0 ≤ m.logPrior ∧ m.logPrior ≤ 0 ∧
    (∀ op ∈ h, Substantial op) ∧ (OccOp.run h).numFree = 2 ∧ (OccOp.run h).numOccupied = 3 := by
  have hu : ((2 : ℝ) ^ 24)⁻¹ ≤ 1 / 100 := by norm_num
  refine ⟨toBits_one 24 float24, fun x => toBits_of_hasBits 24 float24 (C77_ieee 24 float24 x).1, hu, hu, by norm_num, by norm_num, le_rfl, le_rfl, ?_, rfl, rfl⟩
  intro op ho
  simp only [List.mem_cons, List.not_mem_nil, or_false] at ho
  rcases ho with rfl | rfl | rfl
  · trivial
  · trivial
  · exact Multiset.cons_ne_zero

end Ndt
