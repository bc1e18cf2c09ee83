import Verif.Proofs.OccSaturation
import Verif.Props.OccFormat

/-! Property theorem C120: enough evidence makes the occupancy of a map of `float` or `double` exactly 0 or exactly 1, and further evidence undoes it. -/

namespace Ndt
open Spec

section
variable {E : Type} {T : Format}

theorem evidenceR_near (R : Rounding ℝ) (m : Ivm) {f n : Nat} (hn : 0 < n) (hw : f + n < 2 ^ 64) :
    |evidenceR R m f n - evidence m f n| ≤ ((1 + R.u) ^ 4 - 1) * magnitude m f n := by
  have h := evidenceR_err R m f n
  have e : (wrapMinusOne f n : ℝ) = (f : ℝ) + n - 1 := by
    rw [wrapMinusOne_eq hn hw.le, Nat.cast_sub (by omega)]; push_cast; ring
  have hn1 : (1 : ℝ) ≤ n := by exact_mod_cast hn
  have hf0 : (0 : ℝ) ≤ f := Nat.cast_nonneg f
  rw [e] at h
  refine h.trans (mul_le_mul_of_nonneg_left ?_ (sub_nonneg.2 (one_le_pow₀ (by linarith [R.nonneg]))))
  unfold magnitude
  rw [abs_mul ((f : ℝ) + n - 1), abs_of_nonneg (show (0 : ℝ) ≤ (f : ℝ) + n - 1 by linarith)]
  have := mul_le_mul_of_nonneg_right (show (f : ℝ) + n - 1 ≤ f + n + 1 by linarith) (abs_nonneg m.logPrior)
  linarith

/-- **C120** (thresholds). A distribution with at least one hit, after any history. Up to the rounding error of the evidence: the occupancy is exactly 1 if the exact evidence is at least `t + 3` bits and below 1 if it is at most `t - 2`
bits; it is exactly 0 if the evidence is at most `-(t + 2)` bits and positive if it is at least `-(t - 4)` bits. Here `t` is 24 for `float` and 53 for `double`, and a bit of evidence is the factor 2 of the odds. -/
theorem C120_thresholds (hT : T = .single ∨ T = .double) (X : ExpFn) (hX : ExpBits T.t X) (he : X.e ≤ 1 / 8) (m : Ivm) (hm : OrdinaryIvm m) (h : List (OccOp Nat E)) (hs : ∀ op ∈ h, Substantial op)
    (hhit : 0 < (OccOp.run h).numOccupied) (hw : (OccOp.run h).numFree + (OccOp.run h).numOccupied < 2 ^ 64) :
    let ev := evidence m (OccOp.run h).numFree (OccOp.run h).numOccupied
    let err := ((1 + ((2 : ℝ) ^ T.t)⁻¹) ^ 4 - 1) * magnitude m (OccOp.run h).numFree (OccOp.run h).numOccupied
    ∃ v, (OccOp.run h).occupancyF T X (ivmFl m) = .fin v ∧
      (((T.t : ℝ) + 3) * Real.log 2 + err ≤ ev → v = 1) ∧ (ev + err ≤ ((T.t : ℝ) - 2) * Real.log 2 → v < 1) ∧
      (ev + err ≤ -((T.t : ℝ) + 2) * Real.log 2 → v = 0) ∧ (-((T.t : ℝ) - 4) * Real.log 2 + err ≤ ev → 0 < v) := by
  intro ev err
  have ht := (scalar_facts hT).1
  have ht4 : 4 ≤ T.t := by rcases hT with rfl | rfl <;> decide
  obtain ⟨a, b⟩ := abs_le.1 (evidenceR_near (ieee ℝ T.t ht) m hhit hw)
  change -err ≤ _ - ev at a
  change _ - ev ≤ err at b
  refine ⟨_, C118_agrees hT ht X hX m hm h hs hw, ?_⟩
  rw [(occupancyR_eq (ieee ℝ T.t ht) X m h hs).2 hhit]
  exact ⟨fun c => logOddsFromR_one _ ht X he (by linarith), fun c => logOddsFromR_lt_one _ ht X (by omega) he (by linarith),
    fun c => logOddsFromR_zero _ ht X he (by linarith), fun c => logOddsFromR_positive _ ht X ht4 he (by linarith)⟩

/-- **C120** (hits decide, misses decide; partial). Prior probability 1/2, hits raise and misses lower the belief. Whatever was recorded before, sufficiently many hits make the occupancy exactly 1, and whatever was recorded before, that
included, sufficiently many misses make it exactly 0: the counts go on, so exact certainty is never final. The numbers that suffice are explicit. Partial: the same is false of weighted
distributions (`C120_weighted_final_refuted`). -/
theorem C120_enough_partial (hT : T = .single ∨ T = .double) (X : ExpFn) (hX : ExpBits T.t X) (he : X.e ≤ 1 / 8) (m : Ivm) (hm : OrdinaryIvm m) (hp : m.logPrior = 0) (hl : m.logFree ≤ 0) (ho : 0 ≤ m.logOcc)
    (h : List (OccOp Nat E)) (hs : ∀ op ∈ h, Substantial op) (hhit : 0 < (OccOp.run h).numOccupied) (hw : (OccOp.run h).numFree + (OccOp.run h).numOccupied < 2 ^ 64) :
    let c := (1 + ((2 : ℝ) ^ T.t)⁻¹) ^ 4 - 1
    let misses := ((OccOp.run h).numFree : ℝ) * -m.logFree
    let hits := ((OccOp.run h).numOccupied : ℝ) * m.logOcc
    (((T.t : ℝ) + 3) * Real.log 2 + (1 + c) * misses ≤ (1 - c) * hits → (OccOp.run h).occupancyF T X (ivmFl m) = .fin 1) ∧
    (((T.t : ℝ) + 2) * Real.log 2 + (1 + c) * hits ≤ (1 - c) * misses → (OccOp.run h).occupancyF T X (ivmFl m) = .fin 0) := by
  intro c misses hits
  obtain ⟨v, hv, h1, _, h0, _⟩ := C120_thresholds hT X hX he m hm h hs hhit hw
  have e1 : evidence m (OccOp.run h).numFree (OccOp.run h).numOccupied = hits - misses := by
    simp only [evidence, hp, hits, misses]; ring
  have e2 : magnitude m (OccOp.run h).numFree (OccOp.run h).numOccupied = misses + hits := by
    simp only [magnitude, hp, hits, misses, abs_mul, Nat.abs_cast, abs_of_nonpos hl, abs_of_nonneg ho]; simp
  rw [e1, e2] at h1 h0
  rw [hv]
  exact ⟨fun k => by rw [h1 (by linarith)], fun k => by rw [h0 (by linarith)]⟩

/-- **C120** (any prior; partial). The same for every prior probability: with `f` misses recorded, `n` hits make the occupancy exactly 1, and with `n` hits recorded, `f` misses make it exactly 0, if what each of them adds to the evidence, less its
rounding error, outweighs the rest. Partial for the reason given at `C120_enough_partial`. -/
theorem C120_any_prior_partial (hT : T = .single ∨ T = .double) (X : ExpFn) (hX : ExpBits T.t X) (he : X.e ≤ 1 / 8) (m : Ivm) (hm : OrdinaryIvm m) (h : List (OccOp Nat E)) (hs : ∀ op ∈ h, Substantial op)
    (hhit : 0 < (OccOp.run h).numOccupied) (hw : (OccOp.run h).numFree + (OccOp.run h).numOccupied < 2 ^ 64) :
    let c := (1 + ((2 : ℝ) ^ T.t)⁻¹) ^ 4 - 1
    let f : ℝ := (OccOp.run h).numFree
    let n : ℝ := (OccOp.run h).numOccupied
    (((T.t : ℝ) + 3) * Real.log 2 + f * (m.logPrior - m.logFree + c * (|m.logFree| + |m.logPrior|)) - m.logPrior + c * |m.logPrior| ≤ n * (m.logOcc - m.logPrior - c * (|m.logOcc| + |m.logPrior|)) →
      (OccOp.run h).occupancyF T X (ivmFl m) = .fin 1) ∧
    (((T.t : ℝ) + 2) * Real.log 2 + n * (m.logOcc - m.logPrior + c * (|m.logOcc| + |m.logPrior|)) + m.logPrior + c * |m.logPrior| ≤ f * (m.logPrior - m.logFree - c * (|m.logFree| + |m.logPrior|)) →
      (OccOp.run h).occupancyF T X (ivmFl m) = .fin 0) := by
  intro c f n
  obtain ⟨v, hv, h1, _, h0, _⟩ := C120_thresholds hT X hX he m hm h hs hhit hw
  have e1 : evidence m (OccOp.run h).numFree (OccOp.run h).numOccupied = n * (m.logOcc - m.logPrior) - f * (m.logPrior - m.logFree) + m.logPrior := by
    simp only [evidence, f, n]; ring
  have e2 : magnitude m (OccOp.run h).numFree (OccOp.run h).numOccupied = f * (|m.logFree| + |m.logPrior|) + n * (|m.logOcc| + |m.logPrior|) + |m.logPrior| := by
    simp only [magnitude, abs_mul, Nat.abs_cast, f, n]; ring
  rw [e1, e2] at h1 h0
  rw [hv]
  exact ⟨fun k => by rw [h1 (by linarith)], fun k => by rw [h0 (by linarith)]⟩

/-- **C120** (weights, thresholds). The same thresholds for weighted distributions, in terms of the accumulated weights. -/
theorem C120_weighted_thresholds {T : Format} (hT : T = .single ∨ T = .double) (ht : 1 ≤ T.t) (X : ExpFn) (hX : ExpBits T.t X) (he : X.e ≤ 1 / 8) (m : Ivm) (hm : OrdinaryIvm m) (h : List Weights.Update)
    (hw : ∀ op ∈ h, OrdinaryWeight T op.weight) (f w : ℝ) (hfree : (WeightsF.run T (h.map updateFl)).free = .fin f) (hocc : (WeightsF.run T (h.map updateFl)).occupied = some (.fin w))
    (hf : (Weights.run (ieee ℝ T.t ht) h).free ≤ 2 ^ 60) (ho : ∀ s, (Weights.run (ieee ℝ T.t ht) h).occupied = some s → s ≤ 2 ^ 60) :
    let ev := evidence m f w
    let err := ((1 + ((2 : ℝ) ^ T.t)⁻¹) ^ 4 - 1) * magnitude m f w
    ∃ v, (WeightsF.run T (h.map updateFl)).occupancy T X (ivmFl m) = .fin v ∧
      (((T.t : ℝ) + 3) * Real.log 2 + err ≤ ev → v = 1) ∧ (ev + err ≤ ((T.t : ℝ) - 2) * Real.log 2 → v < 1) ∧
      (ev + err ≤ -((T.t : ℝ) + 2) * Real.log 2 → v = 0) ∧ (-((T.t : ℝ) - 4) * Real.log 2 + err ≤ ev → 0 < v) := by
  intro ev err
  have ht4 : 4 ≤ T.t := by rcases hT with rfl | rfl <;> decide
  have hw0 : ∀ op ∈ h, InFormat T op.weight ∧ 0 ≤ op.weight := fun op hop => ⟨(hw op hop).1, by
    rcases (hw op hop).2 with h | h
    · exact h.ge
    · exact le_trans (by positivity) h⟩
  obtain ⟨_, _, f0, o0, _⟩ := WeightsF.run_fin hT ht h hw0 hf ho
  obtain ⟨g1, g2, g3⟩ := C118_weighted_agrees hT ht X hX m hm h hw hf ho
  rw [hfree] at g1
  rw [hocc] at g2
  cases hc : (Weights.run (ieee ℝ T.t ht) h).occupied with
  | none => rw [hc] at g2; simp at g2
  | some s =>
    rw [hc] at g2
    have es : w = s := by simpa using g2
    have ef : f = (Weights.run (ieee ℝ T.t ht) h).free := by simpa using g1
    have w0 := (o0 s hc).2
    rw [← ef] at f0
    rw [← es] at w0
    obtain ⟨a, b⟩ := abs_le.1 (Weights.weighted_evidence_err (ieee ℝ T.t ht) m f w f0 w0)
    change -err ≤ _ - ev at a
    change _ - ev ≤ err at b
    refine ⟨_, g3, ?_⟩
    have eo : (Weights.run (ieee ℝ T.t ht) h).occupancy (ieee ℝ T.t ht) X m = logOddsFromR (ieee ℝ T.t ht) X (Weights.evidence (ieee ℝ T.t ht) m f w) := by
      unfold Weights.occupancy; rw [hc, ef, es]
    rw [eo]
    exact ⟨fun c => logOddsFromR_one _ ht X he (by linarith), fun c => logOddsFromR_lt_one _ ht X (by omega) he (by linarith),
      fun c => logOddsFromR_zero _ ht X he (by linarith), fun c => logOddsFromR_positive _ ht X ht4 he (by linarith)⟩

end

/-! ### an instance -/

/-- log odds 0, -1 and 1 for the prior, misses and hits -/
noncomputable def unitModel : Ivm := ⟨0, -1, 1⟩

theorem unitModel_ordinary : OrdinaryIvm unitModel := by
  refine ⟨Or.inl rfl, Or.inr ?_, Or.inr ?_⟩ <;> simp [unitModel] <;> norm_num

/-- `n` hits, then `f` misses -/
def hitsThenMisses (n f : Nat) : List (OccOp Nat Nat) := List.replicate n (.point 0) ++ List.replicate f (.free 1)

theorem hitsThenMisses_facts (n f : Nat) : (∀ op ∈ hitsThenMisses n f, Substantial op) ∧ (OccOp.run (hitsThenMisses n f)).numFree = f ∧ (OccOp.run (hitsThenMisses n f)).numOccupied = n := by
  refine ⟨fun op ho => ?_, ?_, ?_⟩
  · rcases List.mem_append.1 ho with h | h <;> rw [List.eq_of_mem_replicate h] <;> trivial
  · rw [(C21_counts _).1]; simp [hitsThenMisses, freeOf]
  · rw [(C21_counts _).2.2]; simp [hitsThenMisses, hitsOf]

theorem float_margin : (1 + ((2 : ℝ) ^ Format.single.t)⁻¹) ^ 4 - 1 ≤ 1 / 1000000 := by
  show (1 + ((2 : ℝ) ^ 24)⁻¹) ^ 4 - 1 ≤ _
  norm_num

theorem float_margin_pos : 0 ≤ (1 + ((2 : ℝ) ^ Format.single.t)⁻¹) ^ 4 - 1 := sub_nonneg.2 (one_le_pow₀ (by simp))

theorem float_small_exp : (ieeeExp 24 float24).e ≤ 1 / 8 := by show ((2 : ℝ) ^ 24)⁻¹ ≤ 1 / 8; norm_num

/-- **C120** (an instance, and a difference from C21). In a map of floats: 19 hits make the occupancy exactly 1, the next hit does not change it any more although it raises the exact occupancy, 60 misses later it is exactly 0, and after 5 hits
it is neither. -/
theorem C120_sample :
    let occ := fun n f => (OccOp.run (hitsThenMisses n f)).occupancyF .single (ieeeExp 24 float24) (ivmFl unitModel)
    occ 19 0 = .fin 1 ∧ occ 20 0 = .fin 1 ∧ (OccOp.run (hitsThenMisses 19 0)).occupancy unitModel < (OccOp.run (hitsThenMisses 20 0)).occupancy unitModel ∧
    occ 20 60 = .fin 0 ∧ ∃ v, occ 5 0 = .fin v ∧ 0 < v ∧ v < 1 := by
  intro occ
  have l1 := Real.log_two_lt_d9
  have l0 := Real.log_two_gt_d9
  have c1 := float_margin
  have c0 := float_margin_pos
  have t24 : ((Format.single.t : Nat) : ℝ) = 24 := by norm_num [Format.single]
  have key := fun (n f : Nat) (hn : 0 < n) (hw : f + n < 2 ^ 64) =>
    C120_enough_partial (E := Nat) (T := .single) (Or.inl rfl) (ieeeExp 24 float24) (ieeeExp_bits 24 float24) float_small_exp unitModel unitModel_ordinary rfl (by simp [unitModel]) (by simp [unitModel])
      (hitsThenMisses n f) (hitsThenMisses_facts n f).1 (by rw [(hitsThenMisses_facts n f).2.2]; exact hn) (by rw [(hitsThenMisses_facts n f).2.1, (hitsThenMisses_facts n f).2.2]; exact hw)
  simp only [(hitsThenMisses_facts _ _).2.1, (hitsThenMisses_facts _ _).2.2, t24] at key
  refine ⟨(key 19 0 (by norm_num) (by norm_num)).1 ?_, (key 20 0 (by norm_num) (by norm_num)).1 ?_, ?_, (key 20 60 (by norm_num) (by norm_num)).2 ?_, ?_⟩
  · simp only [unitModel]; norm_num at c0 c1 ⊢; linarith
  · simp only [unitModel]; norm_num at c0 c1 ⊢; linarith
  · have f19 := hitsThenMisses_facts 19 0
    have f20 := hitsThenMisses_facts 20 0
    rw [C21_depends_only_on_counts _ f19.1 _ (by rw [f19.2.1, f19.2.2]; norm_num), C21_depends_only_on_counts _ f20.1 _ (by rw [f20.2.1, f20.2.2]; norm_num), f19.2.1, f19.2.2, f20.2.1, f20.2.2]
    have e := Real.exp_lt_exp.2 (show (19 : ℝ) < 20 by norm_num)
    have p := Real.exp_pos 19
    simp only [occupancySpec, unitModel]
    norm_num
    exact inv_strictAnti₀ (by linarith) (by linarith)
  · simp only [unitModel]; norm_num at c0 c1 ⊢; linarith
  · have f5 := hitsThenMisses_facts 5 0
    obtain ⟨v, hv, _, h1, _, h0⟩ := C120_thresholds (E := Nat) (T := .single) (Or.inl rfl) (ieeeExp 24 float24) (ieeeExp_bits 24 float24) float_small_exp unitModel unitModel_ordinary (hitsThenMisses 5 0) f5.1
      (by rw [f5.2.2]; norm_num) (by rw [f5.2.1, f5.2.2]; norm_num)
    rw [f5.2.1, f5.2.2, t24] at h1 h0
    refine ⟨v, hv, h0 ?_, h1 ?_⟩
    · simp only [evidence, magnitude, unitModel]; norm_num at c0 c1 ⊢; linarith
    · simp only [evidence, magnitude, unitModel]; norm_num at c0 c1 ⊢; linarith

/-- one hit of weight `2^25`, then `n` misses of weight 1 -/
def heavyHit (n : Nat) : List Weights.Update := .hit (2 ^ 25) :: List.replicate n (.free 1)

theorem heavyHit_run (n : Nat) : Weights.run (ieee ℝ 24 float24) (heavyHit n) = ⟨((min n (2 ^ 24) : Nat) : ℝ), some (2 ^ 25)⟩ := by
  have e : toBits 24 ((2 : ℝ) ^ 25) = 2 ^ 25 := by
    have := toBits_two_pow (K := ℝ) 24 float24 25
    simpa using this
  have a : (Weights.run (ieee ℝ 24 float24) (heavyHit n)).occupied = some (2 ^ 25) ∧
      (Weights.run (ieee ℝ 24 float24) (heavyHit n)).free = (Weights.run (ieee ℝ 24 float24) (List.replicate n (.free 1))).free := by
    induction n with
    | zero =>
      refine ⟨?_, rfl⟩
      show some (toBits 24 ((0 : ℝ) + 2 ^ 25)) = _
      rw [zero_add, e]
    | succ n ih =>
      have eh : heavyHit (n + 1) = heavyHit n ++ [.free 1] := by unfold heavyHit; rw [List.replicate_succ', List.cons_append]
      rw [eh, List.replicate_succ', Weights.run_append, Weights.run_append]
      refine ⟨ih.1, ?_⟩
      show toBits 24 (_ + 1) = toBits 24 (_ + 1)
      rw [ih.2]
  rw [Weights.C88_free_weight_partial 24 (by norm_num) n] at a
  rw [← a.1, ← a.2]

theorem heavyHit_ordinary (n : Nat) : ∀ op ∈ heavyHit n, OrdinaryWeight .single op.weight := by
  have p := fun k h1 h2 => pow_inFormat (K := ℝ) (T := .single) (Or.inl rfl) (n := k) h1 h2
  intro op ho
  rcases List.mem_cons.1 ho with rfl | ho
  · refine ⟨?_, Or.inr ?_⟩
    · show InFormat .single ((2 : ℝ) ^ 25)
      have := p 25 (by decide) (by decide)
      simpa using this
    · show (1 : ℝ) / 2 ^ 60 ≤ 2 ^ 25; norm_num
  · rw [List.eq_of_mem_replicate ho]
    refine ⟨?_, Or.inr ?_⟩
    · show InFormat .single (1 : ℝ)
      have := p 0 (by decide) (by decide)
      simpa using this
    · show (1 : ℝ) / 2 ^ 60 ≤ 1; norm_num

/-- **C120 is false of weighted distributions.** In a weighted map of floats, after one hit of weight `2^25` no number of misses of weight 1 changes the occupancy from exactly 1, although the exact evidence is against occupancy after more than `2^25`
misses: the free weight stops at `2^24`. -/
theorem C120_weighted_final_refuted :
    (∀ n, (WeightsF.run .single ((heavyHit n).map updateFl)).occupancy .single (ieeeExp 24 float24) (ivmFl unitModel) = .fin 1) ∧ ∀ n : Nat, 2 ^ 25 < n → evidence unitModel n (2 ^ 25) < 0 := by
  constructor
  · intro n
    have hr := heavyHit_run n
    have hm : ((min n (2 ^ 24) : Nat) : ℝ) ≤ 2 ^ 24 := by exact_mod_cast min_le_right n (2 ^ 24)
    have hm0 : (0 : ℝ) ≤ ((min n (2 ^ 24) : Nat) : ℝ) := Nat.cast_nonneg _
    have b1 : (Weights.run (ieee ℝ 24 float24) (heavyHit n)).free ≤ 2 ^ 60 := by rw [hr]; exact hm.trans (by norm_num)
    have b2 : ∀ s, (Weights.run (ieee ℝ 24 float24) (heavyHit n)).occupied = some s → s ≤ 2 ^ 60 := by
      intro s hs; rw [hr] at hs; rw [← Option.some.inj hs]; norm_num
    obtain ⟨g1, g2, _⟩ := C118_weighted_agrees (T := .single) (Or.inl rfl) float24 (ieeeExp 24 float24) (ieeeExp_bits 24 float24) unitModel unitModel_ordinary (heavyHit n) (heavyHit_ordinary n) b1 b2
    obtain ⟨v, hv, h1, _⟩ := C120_weighted_thresholds (T := .single) (Or.inl rfl) float24 (ieeeExp 24 float24) (ieeeExp_bits 24 float24) float_small_exp unitModel unitModel_ordinary (heavyHit n) (heavyHit_ordinary n)
      ((min n (2 ^ 24) : Nat) : ℝ) (2 ^ 25) (g1.trans (by show Fl.fin (Weights.run (ieee ℝ 24 float24) (heavyHit n)).free = _; rw [hr]))
      (g2.trans (by show (Weights.run (ieee ℝ 24 float24) (heavyHit n)).occupied.map Fl.fin = _; rw [hr]; rfl)) b1 b2
    rw [hv, h1]
    have c1 := float_margin
    have c0 := float_margin_pos
    have l1 := Real.log_two_lt_d9
    have t24 : ((Format.single.t : Nat) : ℝ) = 24 := by norm_num [Format.single]
    rw [t24]
    generalize ((min n (2 ^ 24) : Nat) : ℝ) = y at hm hm0 ⊢
    generalize (1 + ((2 : ℝ) ^ Format.single.t)⁻¹) ^ 4 - 1 = c at c0 c1 ⊢
    have e1 : evidence unitModel y (2 ^ 25) = 2 ^ 25 - y := by simp [evidence, unitModel]; ring
    have e2 : magnitude unitModel y (2 ^ 25) = y + 2 ^ 25 := by simp [magnitude, unitModel, abs_of_nonneg hm0]
    rw [e1, e2]
    have : c * (y + 2 ^ 25) ≤ 1 / 1000000 * (2 ^ 24 + 2 ^ 25) := mul_le_mul c1 (by linarith) (by positivity) (by norm_num)
    norm_num at this hm ⊢
    linarith
  · intro n hn
    have : (2 : ℝ) ^ 25 < n := by exact_mod_cast hn
    simp only [evidence, unitModel]
    linarith

/-- log odds -1, -2 and 1: a prior probability below 1/2 -/
noncomputable def lowPrior : Ivm := ⟨-1, -2, 1⟩

/-- With a prior below 1/2: 30 hits make the occupancy of a distribution of floats exactly 1, and 100 misses later it is exactly 0. -/
theorem C120_prior_sample :
    (OccOp.run (hitsThenMisses 30 0)).occupancyF .single (ieeeExp 24 float24) (ivmFl lowPrior) = .fin 1 ∧
    (OccOp.run (hitsThenMisses 30 100)).occupancyF .single (ieeeExp 24 float24) (ivmFl lowPrior) = .fin 0 := by
  have l1 := Real.log_two_lt_d9
  have c1 := float_margin
  have c0 := float_margin_pos
  have t24 : ((Format.single.t : Nat) : ℝ) = 24 := by norm_num [Format.single]
  have hm : OrdinaryIvm lowPrior := by refine ⟨Or.inr ?_, Or.inr ?_, Or.inr ?_⟩ <;> simp [lowPrior] <;> norm_num
  have key := fun (n f : Nat) (hn : 0 < n) (hw : f + n < 2 ^ 64) =>
    C120_any_prior_partial (E := Nat) (T := .single) (Or.inl rfl) (ieeeExp 24 float24) (ieeeExp_bits 24 float24) float_small_exp lowPrior hm
      (hitsThenMisses n f) (hitsThenMisses_facts n f).1 (by rw [(hitsThenMisses_facts n f).2.2]; exact hn) (by rw [(hitsThenMisses_facts n f).2.1, (hitsThenMisses_facts n f).2.2]; exact hw)
  simp only [(hitsThenMisses_facts _ _).2.1, (hitsThenMisses_facts _ _).2.2, t24] at key
  generalize (1 + ((2 : ℝ) ^ Format.single.t)⁻¹) ^ 4 - 1 = c at c0 c1 key
  refine ⟨(key 30 0 (by norm_num) (by norm_num)).1 ?_, (key 30 100 (by norm_num) (by norm_num)).2 ?_⟩
  · simp only [lowPrior]; norm_num; linarith
  · simp only [lowPrior]; norm_num; linarith

end Ndt
