import Verif.Model.OccSpecial
import Verif.Spec.OccSpecial
import Verif.Props.Occupancy
import Mathlib.Tactic.Linarith
import Mathlib.Tactic.Positivity
import Mathlib.Tactic.NormNum
import Mathlib.Tactic.Ring

/-! Property theorem C97: occupancies for inverse sensor models with probabilities 0 and 1. -/

namespace Ndt
open Spec

namespace Fl

theorem add_nan (x : Fl ℝ) : x + .nan = .nan := by cases x <;> rfl
theorem nan_add (x : Fl ℝ) : .nan + x = (.nan : Fl ℝ) := rfl
theorem mul_nan (x : Fl ℝ) : x * .nan = .nan := by cases x <;> rfl
theorem inf_add_fin (s : Bool) (x : ℝ) : (.inf s : Fl ℝ) + .fin x = .inf s := rfl
theorem fin_add_inf (s : Bool) (x : ℝ) : (.fin x : Fl ℝ) + .inf s = .inf s := rfl
theorem fin_add_fin (x y : ℝ) : (.fin x : Fl ℝ) + .fin y = .fin (x + y) := rfl
theorem fin_mul_fin (x y : ℝ) : (.fin x : Fl ℝ) * .fin y = .fin (x * y) := rfl
theorem neg_fin (x : ℝ) : -(.fin x : Fl ℝ) = .fin (-x) := rfl
theorem zero_mul_inf (s : Bool) : (.fin 0 : Fl ℝ) * .inf s = .nan := by
  show (if (0 : ℝ) = 0 then Fl.nan else _) = _
  rw [if_pos rfl]
theorem pos_mul_inf {x : ℝ} (h : 0 < x) (s : Bool) : (.fin x : Fl ℝ) * .inf s = .inf s := by
  show (if x = 0 then Fl.nan else _) = _
  rw [if_neg h.ne', decide_eq_false (not_lt.2 h.le)]
  cases s <;> rfl
theorem inf_add_inf (s : Bool) : (.inf s : Fl ℝ) + .inf s = .inf s := by
  show (if s = s then Fl.inf s else _) = _
  rw [if_pos rfl]
theorem inf_add_inf_ne {s s' : Bool} (h : s ≠ s') : (.inf s : Fl ℝ) + .inf s' = .nan := by
  show (if s = s' then Fl.inf s else _) = _
  rw [if_neg h]

end Fl

theorem from_nan : logOddsFromFl .nan = .nan := rfl

theorem from_inf (s : Bool) : logOddsFromFl (.inf s) = .fin (if s then 0 else 1) := by
  cases s
  · show (.fin 1 : Fl ℝ) + -(.fin 0) = _
    rw [Fl.neg_fin, Fl.fin_add_fin]; norm_num
  · show (.fin 1 : Fl ℝ) + -(Fl.inverse (.fin 1 + .fin 0)) = _
    rw [Fl.fin_add_fin]
    show (.fin 1 : Fl ℝ) + -(if (1 + 0 : ℝ) = 0 then _ else _) = _
    rw [if_neg (by norm_num), Fl.neg_fin, Fl.fin_add_fin]; norm_num

theorem from_fin (x : ℝ) : logOddsFromFl (.fin x) = .fin (logOddsFrom x) := by
  have h : (0 : ℝ) < 1 + Real.exp x := by positivity
  show (.fin 1 : Fl ℝ) + -(Fl.inverse (.fin 1 + .fin (Real.exp x))) = _
  rw [Fl.fin_add_fin]
  show (.fin 1 : Fl ℝ) + -(if (1 + Real.exp x : ℝ) = 0 then _ else _) = _
  rw [if_neg h.ne', Fl.neg_fin, Fl.fin_add_fin]
  unfold logOddsFrom; rw [sub_eq_add_neg]

theorem to_certain {p : ℝ} (h : Certain p) : ∃ s, logOddsTo p = .inf s ∧ p = (if s then 0 else 1 : ℝ) := by
  unfold logOddsTo
  rcases h with rfl | rfl
  · exact ⟨true, by rw [if_pos rfl], rfl⟩
  · exact ⟨false, by rw [if_neg one_ne_zero, if_pos rfl], rfl⟩

theorem to_uncertain {p : ℝ} (h : ¬ Certain p) : logOddsTo p = .fin (logit p) := by
  unfold logOddsTo
  rw [if_neg fun e => h (Or.inl e), if_neg fun e => h (Or.inr e)]
  rfl

/-- the argument of `LogOdds<T>::from` and the result, for a prior that leaves doubt -/
theorem special_cases (prior free occ a b c : ℝ) (hp : ¬ Certain prior) (ha : 0 ≤ a) (hb : 0 < b) :
    logOddsFromFl (.fin a * logOddsTo free + .fin b * logOddsTo occ + -(.fin c * logOddsTo prior)) = .nan ∧ Certain free ∧ (a = 0 ∨ Certain occ ∧ free ≠ occ) ∨
    ¬ (Certain free ∧ (a = 0 ∨ Certain occ ∧ free ≠ occ)) ∧
      (Certain occ → logOddsFromFl (.fin a * logOddsTo free + .fin b * logOddsTo occ + -(.fin c * logOddsTo prior)) = .fin occ) ∧
      (Certain free → logOddsFromFl (.fin a * logOddsTo free + .fin b * logOddsTo occ + -(.fin c * logOddsTo prior)) = .fin free) ∧
      (¬ Certain free → ¬ Certain occ → logOddsFromFl (.fin a * logOddsTo free + .fin b * logOddsTo occ + -(.fin c * logOddsTo prior)) =
        .fin (logOddsFrom (a * logit free + b * logit occ - c * logit prior))) := by
  rw [to_uncertain hp]
  by_cases hf : Certain free
  · obtain ⟨s, es, vs⟩ := to_certain hf
    rw [es]
    rcases ha.lt_or_eq with ha | rfl
    · rw [Fl.pos_mul_inf ha]
      by_cases ho : Certain occ
      · obtain ⟨s', es', vs'⟩ := to_certain ho
        rw [es', Fl.pos_mul_inf hb]
        by_cases hss : s = s'
        · subst hss
          right
          have hfo : free = occ := by rw [vs, vs']
          rw [Fl.inf_add_inf, Fl.fin_mul_fin, Fl.neg_fin, Fl.inf_add_fin, from_inf, ← vs]
          refine ⟨fun h => ?_, fun _ => by rw [hfo], fun _ => rfl, fun h => absurd hf h⟩
          rcases h.2 with h | h
          · exact absurd h ha.ne'
          · exact h.2 hfo
        · left
          rw [Fl.inf_add_inf_ne hss]
          refine ⟨rfl, hf, Or.inr ⟨ho, fun e => hss ?_⟩⟩
          rw [vs, vs'] at e
          cases s <;> cases s' <;> simp_all
      · right
        rw [to_uncertain ho, Fl.fin_mul_fin, Fl.inf_add_fin, Fl.fin_mul_fin, Fl.neg_fin, Fl.inf_add_fin, from_inf, ← vs]
        refine ⟨fun h => ?_, fun h => absurd h ho, fun _ => rfl, fun h => absurd hf h⟩
        rcases h.2 with h | h
        · exact absurd h ha.ne'
        · exact ho h.1
    · left
      rw [Fl.zero_mul_inf]
      exact ⟨rfl, hf, Or.inl rfl⟩
  · right
    refine ⟨fun h => hf h.1, ?_⟩
    rw [to_uncertain hf]
    by_cases ho : Certain occ
    · obtain ⟨s', es', vs'⟩ := to_certain ho
      rw [es', Fl.pos_mul_inf hb, Fl.fin_mul_fin, Fl.fin_add_inf, Fl.fin_mul_fin, Fl.neg_fin, Fl.inf_add_fin, from_inf, ← vs']
      exact ⟨fun _ => rfl, fun h => absurd h hf, fun _ h => absurd ho h⟩
    · rw [to_uncertain ho, Fl.fin_mul_fin, Fl.fin_mul_fin, Fl.fin_mul_fin, Fl.fin_add_fin, Fl.neg_fin, Fl.fin_add_fin, from_fin]
      exact ⟨fun h => absurd h ho, fun h => absurd h hf, fun _ _ => by rw [sub_eq_add_neg]⟩

section
variable {E : Type}

theorem occupancyFl_cases (h : List (OccOp Nat E)) (hs : ∀ op ∈ h, Substantial op) (m : IvmFl) :
    ((OccOp.run h).numOccupied = 0 → (OccOp.run h).occupancyFl m = .fin 0) ∧
    (0 < (OccOp.run h).numOccupied → (OccOp.run h).occupancyFl m = logOddsFromFl (.fin ((OccOp.run h).numFree : ℝ) * m.logFree + .fin ((OccOp.run h).numOccupied : ℝ) * m.logOcc +
      -(.fin (wrapMinusOne (OccOp.run h).numFree (OccOp.run h).numOccupied : ℝ) * m.logPrior))) := by
  obtain ⟨h1, h2⟩ := OccOp.run_data hs
  rw [Occ.numOccupied_eq]
  unfold Occ.occupancyFl
  constructor
  · intro e; rw [h1 (Multiset.card_eq_zero.1 e)]
  · intro e; rw [h2 (by rintro e'; rw [e'] at e; simp at e)]; rfl

/-- **C97** (when it fails). For every history of updates and every inverse model whose prior leaves doubt: the occupancy is NaN exactly if there are hits, the model is certain about free cells, and there are no misses, or the model
is also certain about occupied cells and contradicts itself. -/
theorem C97_nan_iff (h : List (OccOp Nat E)) (hs : ∀ op ∈ h, Substantial op) (prior free occ : ℝ) (hp : ¬ Certain prior) :
    (OccOp.run h).occupancyFl (.mk' prior free occ) = .nan ↔
      0 < (OccOp.run h).numOccupied ∧ Certain free ∧ ((OccOp.run h).numFree = 0 ∨ Certain occ ∧ free ≠ occ) := by
  obtain ⟨h1, h2⟩ := occupancyFl_cases h hs (.mk' prior free occ)
  rcases Nat.eq_zero_or_pos (OccOp.run h).numOccupied with e | e
  · rw [h1 e, e]
    simp
  · rw [h2 e]
    rcases special_cases prior free occ ((OccOp.run h).numFree : ℝ) ((OccOp.run h).numOccupied : ℝ) (wrapMinusOne (OccOp.run h).numFree (OccOp.run h).numOccupied : ℝ) hp (Nat.cast_nonneg _) (by exact_mod_cast e) with ⟨k1, k2, k3⟩ | ⟨k1, k2, k3, k4⟩
    · refine iff_of_true k1 ⟨e, k2, ?_⟩
      rcases k3 with k3 | k3
      · exact Or.inl (by exact_mod_cast k3)
      · exact Or.inr k3
    · refine iff_of_false (fun hc => ?_) (fun hc => k1 ⟨hc.2.1, ?_⟩)
      · by_cases hf : Certain free
        · exact absurd ((k3 hf).symm.trans hc) (fun x => by cases x)
        · by_cases ho : Certain occ
          · exact absurd ((k2 ho).symm.trans hc) (fun x => by cases x)
          · exact absurd ((k4 hf ho).symm.trans hc) (fun x => by cases x)
      · rcases hc.2.2 with k | k
        · exact Or.inl (by exact_mod_cast k)
        · exact Or.inr k

/-- **C97 (partial).** In all other cases the occupancy is the probability one expects: 0 without hits; what the model says if it is certain; the value of C21 otherwise. Missing: the cases of `C97_nan_iff` and priors of 0 and 1, for which
the property is false (`C97_nan_refuted`, `C97_prior`). -/
theorem C97_value_partial (h : List (OccOp Nat E)) (hs : ∀ op ∈ h, Substantial op) (hw : (OccOp.run h).numFree + (OccOp.run h).numOccupied ≤ 2 ^ 64) (prior free occ : ℝ) (hp : ¬ Certain prior)
    (hf : 0 ≤ free ∧ free ≤ 1) (ho : 0 ≤ occ ∧ occ ≤ 1) (hn : (OccOp.run h).occupancyFl (.mk' prior free occ) ≠ .nan) :
    IsProbability ((OccOp.run h).occupancyFl (.mk' prior free occ)) ∧
    ((OccOp.run h).numOccupied = 0 → (OccOp.run h).occupancyFl (.mk' prior free occ) = .fin 0) ∧
    (0 < (OccOp.run h).numOccupied → Certain occ → (OccOp.run h).occupancyFl (.mk' prior free occ) = .fin occ) ∧
    (0 < (OccOp.run h).numOccupied → Certain free → (OccOp.run h).occupancyFl (.mk' prior free occ) = .fin free) ∧
    (¬ Certain free → ¬ Certain occ → (OccOp.run h).occupancyFl (.mk' prior free occ) =
      .fin (occupancySpec ⟨logit prior, logit free, logit occ⟩ (OccOp.run h).numFree (OccOp.run h).numOccupied)) := by
  rw [← C21_depends_only_on_counts h hs _ hw]
  obtain ⟨h1, h2⟩ := occupancyFl_cases h hs (.mk' prior free occ)
  obtain ⟨r1, r2⟩ := C21_range h hs ⟨logit prior, logit free, logit occ⟩
  rcases Nat.eq_zero_or_pos (OccOp.run h).numOccupied with e | e
  · rw [h1 e]
    refine ⟨⟨0, rfl, le_refl _, zero_le_one⟩, fun _ => rfl, fun c => absurd e c.ne', fun c => absurd e c.ne', fun _ _ => by rw [r1 e]⟩
  · have hocc : (OccOp.run h).occupancy ⟨logit prior, logit free, logit occ⟩ =
        logOddsFrom ((OccOp.run h).numFree * logit free + (OccOp.run h).numOccupied * logit occ - (wrapMinusOne (OccOp.run h).numFree (OccOp.run h).numOccupied : ℝ) * logit prior) := by
      obtain ⟨_, d2⟩ := OccOp.run_data hs
      unfold Occ.occupancy
      rw [Occ.numOccupied_eq] at e ⊢
      rw [d2 (by rintro e'; rw [e'] at e; simp at e)]; rfl
    rw [h2 e] at hn ⊢
    rcases special_cases prior free occ ((OccOp.run h).numFree : ℝ) ((OccOp.run h).numOccupied : ℝ) (wrapMinusOne (OccOp.run h).numFree (OccOp.run h).numOccupied : ℝ) hp (Nat.cast_nonneg _) (by exact_mod_cast e) with ⟨k1, _⟩ | ⟨_, k2, k3, k4⟩
    · exact absurd k1 hn
    · refine ⟨?_, fun c => absurd c e.ne', fun _ => k2, fun _ => k3, fun c1 c2 => by rw [hocc]; exact k4 c1 c2⟩
      by_cases cf : Certain free
      · exact ⟨free, k3 cf, hf.1, hf.2⟩
      · by_cases co : Certain occ
        · exact ⟨occ, k2 co, ho.1, ho.2⟩
        · refine ⟨_, k4 cf co, ?_, ?_⟩
          · rw [← hocc]; exact (r2 e).1.le
          · rw [← hocc]; exact (r2 e).2.le

/-- **C97** (certain priors). With a prior of 0 or 1 the occupancy is NaN after exactly one hit and no miss, whatever the rest of the model. -/
theorem C97_prior (h : List (OccOp Nat E)) (hs : ∀ op ∈ h, Substantial op) (prior free occ : ℝ) (hp : Certain prior) (h0 : (OccOp.run h).numFree = 0) (h1 : (OccOp.run h).numOccupied = 1) :
    (OccOp.run h).occupancyFl (.mk' prior free occ) = .nan := by
  obtain ⟨_, h2⟩ := occupancyFl_cases h hs (.mk' prior free occ)
  obtain ⟨s, e, _⟩ := to_certain hp
  rw [h2 (by omega), h0, h1, show (IvmFl.mk' prior free occ).logPrior = .inf s from e, show wrapMinusOne 0 1 = 0 from rfl, Nat.cast_zero, Fl.zero_mul_inf]
  show logOddsFromFl (_ + .nan) = _
  rw [Fl.add_nan]; rfl

/-- **C97** (certain priors, continued). After two or more observations with at least one hit and a model that leaves doubt about both, the occupancy is the opposite of the prior. -/
theorem C97_prior_inverted (h : List (OccOp Nat E)) (hs : ∀ op ∈ h, Substantial op) (hw : (OccOp.run h).numFree + (OccOp.run h).numOccupied ≤ 2 ^ 64) (prior free occ : ℝ) (hp : Certain prior)
    (hf : ¬ Certain free) (ho : ¬ Certain occ) (h1 : 0 < (OccOp.run h).numOccupied) (hn : 2 ≤ (OccOp.run h).numFree + (OccOp.run h).numOccupied) :
    (OccOp.run h).occupancyFl (.mk' prior free occ) = .fin (1 - prior) := by
  obtain ⟨_, h2⟩ := occupancyFl_cases h hs (.mk' prior free occ)
  obtain ⟨s, e, v⟩ := to_certain hp
  have hc : (0 : ℝ) < (wrapMinusOne (OccOp.run h).numFree (OccOp.run h).numOccupied : ℝ) := by
    rw [wrapMinusOne_eq h1 hw]
    have : 0 < (OccOp.run h).numFree + (OccOp.run h).numOccupied - 1 := by omega
    exact_mod_cast this
  rw [h2 h1, show (IvmFl.mk' prior free occ).logPrior = .inf s from e, show (IvmFl.mk' prior free occ).logFree = _ from to_uncertain hf, show (IvmFl.mk' prior free occ).logOcc = _ from to_uncertain ho,
    Fl.pos_mul_inf hc, Fl.fin_mul_fin, Fl.fin_mul_fin, Fl.fin_add_fin, show -(Fl.inf s : Fl ℝ) = .inf (!s) from rfl, Fl.fin_add_inf, from_inf, v]
  cases s <;> norm_num

/-- **C97 (refuted part).** With the model (0.5, 0, 0.65), which never takes a cell with a miss for occupied, every cell with hits and without misses has the occupancy NaN. -/
theorem C97_nan_refuted (x : E) : (OccOp.run [.point x, .point x]).occupancyFl (.mk' (1 / 2) 0 (13 / 20)) = .nan ∧ ¬ IsProbability ((OccOp.run [.point x, .point x]).occupancyFl (.mk' (1 / 2) 0 (13 / 20))) := by
  have hn : (OccOp.run [OccOp.point x, .point x]).occupancyFl (.mk' (1 / 2) 0 (13 / 20)) = .nan := by
    refine (C97_nan_iff _ (fun op ho => ?_) _ _ _ (fun c => ?_)).2 ⟨?_, Or.inl rfl, Or.inl rfl⟩
    · simp only [List.mem_cons, List.not_mem_nil, or_false, or_self] at ho; subst ho; trivial
    · rcases c with c | c <;> norm_num at c
    · rw [(C21_counts _).2.2]
      simp [hitsOf]
  exact ⟨hn, fun ⟨_, e, _⟩ => by rw [hn] at e; cases e⟩

end

section
variable {P : Type}

/-- **C97** (weighted). The same for weighted occupancy distributions with positive weights. -/
theorem C97_weighted_nan_iff (h : List (OccOp ℝ (P × ℝ))) (hs : ∀ op ∈ h, Substantial op) (hw : PosWeights h) (h0 : 0 ≤ (OccOp.run h).numFree) (prior free occ : ℝ) (hp : ¬ Certain prior) :
    (OccOp.run h).occupancyWFl (.mk' prior free occ) = .nan ↔
      0 < (OccOp.run h).weightOccupied ∧ Certain free ∧ ((OccOp.run h).numFree = 0 ∨ Certain occ ∧ free ≠ occ) := by
  obtain ⟨d1, d2⟩ := OccOp.run_data hs
  obtain ⟨w1, w2⟩ := weight_pos_iff hw
  by_cases e : (OccOp.run h).samples = 0
  · have hw0 : (OccOp.run h).weightOccupied = 0 := by unfold Occ.weightOccupied; rw [d1 e]
    unfold Occ.occupancyWFl
    rw [hw0, d1 e]
    simp
  · have hw0 : 0 < (OccOp.run h).weightOccupied := w1.2 e
    have hv : (OccOp.run h).occupancyWFl (.mk' prior free occ) = logOddsFromFl (.fin (OccOp.run h).numFree * logOddsTo free + .fin (OccOp.run h).weightOccupied * logOddsTo occ +
        -(.fin ((OccOp.run h).numFree + (OccOp.run h).weightOccupied - 1) * logOddsTo prior)) := by
      unfold Occ.occupancyWFl Occ.weightOccupied
      rw [d2 e]; rfl
    rw [hv]
    rcases special_cases prior free occ (OccOp.run h).numFree (OccOp.run h).weightOccupied ((OccOp.run h).numFree + (OccOp.run h).weightOccupied - 1) hp h0 hw0 with ⟨k1, k2, k3⟩ | ⟨k1, k2, k3, k4⟩
    · exact iff_of_true k1 ⟨hw0, k2, k3⟩
    · refine iff_of_false (fun hc => ?_) (fun hc => k1 ⟨hc.2.1, hc.2.2⟩)
      by_cases hf : Certain free
      · exact absurd ((k3 hf).symm.trans hc) (fun x => by cases x)
      · by_cases ho : Certain occ
        · exact absurd ((k2 ho).symm.trans hc) (fun x => by cases x)
        · exact absurd ((k4 hf ho).symm.trans hc) (fun x => by cases x)

end

/-- **C97 (partial, weighted).** In all other cases the occupancy of a weighted distribution is the probability one expects. Missing: as for `C97_value_partial`. -/
theorem C97_weighted_value_partial {P : Type} (h : List (OccOp ℝ (P × ℝ))) (hs : ∀ op ∈ h, Substantial op) (hw : PosWeights h) (h0 : 0 ≤ (OccOp.run h).numFree) (prior free occ : ℝ) (hp : ¬ Certain prior)
    (hf : 0 ≤ free ∧ free ≤ 1) (ho : 0 ≤ occ ∧ occ ≤ 1) (hn : (OccOp.run h).occupancyWFl (.mk' prior free occ) ≠ .nan) :
    IsProbability ((OccOp.run h).occupancyWFl (.mk' prior free occ)) ∧
    ((OccOp.run h).weightOccupied = 0 → (OccOp.run h).occupancyWFl (.mk' prior free occ) = .fin 0) ∧
    (0 < (OccOp.run h).weightOccupied → Certain occ → (OccOp.run h).occupancyWFl (.mk' prior free occ) = .fin occ) ∧
    (0 < (OccOp.run h).weightOccupied → Certain free → (OccOp.run h).occupancyWFl (.mk' prior free occ) = .fin free) ∧
    (0 < (OccOp.run h).weightOccupied → ¬ Certain free → ¬ Certain occ → (OccOp.run h).occupancyWFl (.mk' prior free occ) =
      .fin (1 - 1 / (1 + Real.exp ((OccOp.run h).numFree * logit free + (OccOp.run h).weightOccupied * logit occ - ((OccOp.run h).numFree + (OccOp.run h).weightOccupied - 1) * logit prior)))) := by
  obtain ⟨d1, d2⟩ := OccOp.run_data hs
  obtain ⟨w1, w2⟩ := weight_pos_iff hw
  by_cases e : (OccOp.run h).samples = 0
  · have hw0 : (OccOp.run h).weightOccupied = 0 := by unfold Occ.weightOccupied; rw [d1 e]
    have hv : (OccOp.run h).occupancyWFl (.mk' prior free occ) = .fin 0 := by unfold Occ.occupancyWFl; rw [d1 e]
    rw [hv]
    exact ⟨⟨0, rfl, le_refl _, zero_le_one⟩, fun _ => rfl, fun c => absurd hw0 c.ne', fun c => absurd hw0 c.ne', fun c => absurd hw0 c.ne'⟩
  · have hw0 : 0 < (OccOp.run h).weightOccupied := w1.2 e
    have hv : (OccOp.run h).occupancyWFl (.mk' prior free occ) = logOddsFromFl (.fin (OccOp.run h).numFree * logOddsTo free + .fin (OccOp.run h).weightOccupied * logOddsTo occ +
        -(.fin ((OccOp.run h).numFree + (OccOp.run h).weightOccupied - 1) * logOddsTo prior)) := by
      unfold Occ.occupancyWFl Occ.weightOccupied
      rw [d2 e]; rfl
    rw [hv] at hn ⊢
    rcases special_cases prior free occ (OccOp.run h).numFree (OccOp.run h).weightOccupied ((OccOp.run h).numFree + (OccOp.run h).weightOccupied - 1) hp h0 hw0 with ⟨k1, _⟩ | ⟨_, k2, k3, k4⟩
    · exact absurd k1 hn
    · refine ⟨?_, fun c => absurd c hw0.ne', fun _ => k2, fun _ => k3, fun _ => k4⟩
      by_cases cf : Certain free
      · exact ⟨free, k3 cf, hf.1, hf.2⟩
      · by_cases co : Certain occ
        · exact ⟨occ, k2 co, ho.1, ho.2⟩
        · exact ⟨_, k4 cf co, (logOddsFrom_pos _).le, (logOddsFrom_lt_one _).le⟩

theorem foldl_nan {α : Type} (f : α → Fl ℝ) : ∀ l : List α, l.foldl (fun v x => v + f x) .nan = .nan
  | [] => rfl
  | x :: l => by rw [List.foldl_cons, Fl.nan_add]; exact foldl_nan f l

/-- **C97** (effect on sampling). If one of the overlapping distributions at a point has the occupancy NaN, the sampled value of the map is NaN, whatever the others contribute. -/
theorem C97_sample (divCount : ℝ) (l : List (Option (ℝ × Fl ℝ))) (dens : ℝ) (h : some (dens, .nan) ∈ l) : sampleFl divCount l = .nan := by
  unfold sampleFl
  suffices hv : ∀ v : Fl ℝ, l.foldl (fun v x => v + .fin divCount * (match x with | some (dens, occ) => .fin dens * occ | none => .fin 0)) v = .nan from hv _
  intro v
  induction l generalizing v with
  | nil => exact absurd h List.not_mem_nil
  | cons x l ih =>
    rw [List.foldl_cons]
    rcases List.mem_cons.1 h with rfl | h
    · rw [show v + Fl.fin divCount * (Fl.fin dens * Fl.nan) = .nan by rw [Fl.mul_nan, Fl.mul_nan, Fl.add_nan]]
      exact foldl_nan _ l
    · exact ih h _

/-- **C97** (effect on sampling, continued). If all of them are numbers, the sampled value is the average of the products of density and occupancy, with 0 for distributions without points. -/
theorem C97_sample_numbers (divCount : ℝ) (l : List (Option (ℝ × ℝ))) :
    sampleFl divCount (l.map (Option.map fun x => (x.1, .fin x.2))) = .fin (divCount * ((l.filterMap id).map fun x => x.1 * x.2).sum) := by
  suffices hv : ∀ v : ℝ, (l.map (Option.map fun x : ℝ × ℝ => (x.1, (Fl.fin x.2 : Fl ℝ)))).foldl
      (fun (v : Fl ℝ) (x : Option (ℝ × Fl ℝ)) => v + .fin divCount * (match x with | some (dens, occ) => .fin dens * occ | none => .fin 0)) (.fin v) = .fin (v + divCount * ((l.filterMap id).map fun x => x.1 * x.2).sum) by
    have := hv 0
    rw [zero_add] at this
    exact this
  induction l with
  | nil => intro v; simp
  | cons x l ih =>
    intro v
    rw [List.map_cons, List.foldl_cons]
    cases x with
    | none =>
      simp only [Option.map_none, Fl.fin_mul_fin, Fl.fin_add_fin, mul_zero, add_zero, List.filterMap_cons_none (f := id) rfl]
      exact ih v
    | some x =>
      simp only [Option.map_some, Fl.fin_mul_fin, Fl.fin_add_fin, List.filterMap_cons_some (f := id) rfl, List.map_cons, List.sum_cons]
      rw [ih]; congr 1; ring

/-- Non-vacuity of `C97_value_partial`: with a miss the same model yields 0, and a model certain about hits yields 1. -/
example (x : ℕ) : (OccOp.run [.point x, .free 1]).occupancyFl (.mk' (1 / 2) 0 (13 / 20)) ≠ .nan ∧ (OccOp.run [.point x]).occupancyFl (.mk' (1 / 2) (9 / 20) 1) ≠ .nan := by
  constructor
  · intro h
    obtain ⟨_, _, h | h⟩ := (C97_nan_iff _ (fun op ho => by simp only [List.mem_cons, List.not_mem_nil, or_false] at ho; rcases ho with rfl | rfl <;> trivial) _ _ _ (fun c => by rcases c with c | c <;> norm_num at c)).1 h
    · rw [(C21_counts _).1] at h; simp [freeOf] at h
    · rcases h.1 with c | c <;> norm_num at c
  · intro h
    obtain ⟨_, c | c, _⟩ := (C97_nan_iff _ (fun op ho => by simp only [List.mem_cons, List.not_mem_nil, or_false] at ho; subst ho; trivial) _ _ _ (fun c => by rcases c with c | c <;> norm_num at c)).1 h <;> norm_num at c

/-- Non-vacuity of `C97_prior_inverted`: with the prior 0 and two hits the occupancy is 1. -/
example (x : ℕ) : (OccOp.run [.point x, .point x]).occupancyFl (.mk' 0 (9 / 20) (13 / 20)) = .fin 1 := by
  have c : (OccOp.run [OccOp.point (W := Nat) x, .point x]).numOccupied = 2 := by rw [(C21_counts _).2.2]; simp [hitsOf]
  have c' : (OccOp.run [OccOp.point (W := Nat) x, .point x]).numFree = 0 := by rw [(C21_counts _).1]; simp [freeOf]
  have k := C97_prior_inverted [OccOp.point x, .point x] (fun op ho => by simp only [List.mem_cons, List.not_mem_nil, or_false, or_self] at ho; subst ho; trivial) (by rw [c, c']; norm_num)
    0 (9 / 20) (13 / 20) (Or.inl rfl) (fun c => by rcases c with c | c <;> norm_num at c) (fun c => by rcases c with c | c <;> norm_num at c) (by rw [c]; norm_num) (by rw [c, c'])
  rw [k]; norm_num

/-- Non-vacuity of the weighted theorems. -/
example : (OccOp.run [.point ((0 : ℕ), (2 : ℝ)), .free (1 / 2)]).occupancyWFl (.mk' (1 / 2) 0 (13 / 20)) ≠ .nan ∧ (OccOp.run [.point ((0 : ℕ), (2 : ℝ))]).occupancyWFl (.mk' (1 / 2) 0 (13 / 20)) = .nan := by
  have hp : ¬ Certain (1 / 2) := fun c => by rcases c with c | c <;> norm_num at c
  have ho : ¬ Certain (13 / 20) := fun c => by rcases c with c | c <;> norm_num at c
  constructor
  · intro h
    obtain ⟨_, _, h | h⟩ := (C97_weighted_nan_iff _ (fun op ho => by simp only [List.mem_cons, List.not_mem_nil, or_false] at ho; rcases ho with rfl | rfl <;> trivial)
      (fun x hx => by simp [hitsOf] at hx; subst hx; norm_num) (by rw [(C21_weights _).1]; simp [freeOf]) _ _ _ hp).1 h
    · rw [(C21_weights _).1] at h; simp [freeOf] at h
    · exact ho h.1
  · refine (C97_weighted_nan_iff _ (fun op ho => by simp only [List.mem_cons, List.not_mem_nil, or_false] at ho; subst ho; trivial)
      (fun x hx => by simp [hitsOf] at hx; subst hx; norm_num) (by rw [(C21_weights _).1]; simp [freeOf]) _ _ _ hp).2 ⟨?_, Or.inl rfl, Or.inl ?_⟩
    · rw [(C21_weights _).2]; simp [hitsOf]
    · rw [(C21_weights _).1]; simp [freeOf]

end Ndt
