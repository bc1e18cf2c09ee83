import Verif.Proofs.Occupancy

/-! Property theorems C21–C23: occupancy distributions. -/

namespace Ndt
open Spec

/-! ### C21 -/
section C21
variable {E : Type}

/-- **C21** (counts). After any history of updates, `numFree` is the sum of the free observations and the distribution holds exactly the recorded hits. -/
theorem C21_counts {W : Type} [AddCommMonoid W] (h : List (OccOp W E)) :
    (OccOp.run h).numFree = (h.map freeOf).sum ∧ (OccOp.run h).samples = (h.map hitsOf).sum ∧
    (OccOp.run h).numOccupied = ((h.map hitsOf).sum).card := by
  refine ⟨OccOp.run_free h, OccOp.run_samples h, ?_⟩
  rw [Occ.numOccupied_eq, OccOp.run_samples]

/-- **C21** (order). Reordering the updates changes neither the object nor the occupancy, whatever the inverse model. -/
theorem C21_order_irrelevant {h h' : List (OccOp Nat E)} (hp : h.Perm h') (m : Ivm) :
    OccOp.run h = OccOp.run h' ∧ (OccOp.run h).occupancy m = (OccOp.run h').occupancy m := by
  have : OccOp.run h = OccOp.run h' := by
    rw [OccOp.run_eq, OccOp.run_eq]; exact (hp.map _).sum_eq
  exact ⟨this, by rw [this]⟩

/-- The documented value: 0 without hits, otherwise the probability of the summed log odds, with the prior counted once. -/
noncomputable def occupancySpec (m : Ivm) (nf no : Nat) : ℝ :=
  if no = 0 then 0 else 1 - 1 / (1 + Real.exp ((nf : ℝ) * m.logFree + (no : ℝ) * m.logOcc - ((nf : ℝ) + (no : ℝ) - 1) * m.logPrior))

/-- **C21** (depends only on the counts). The occupancy is a fixed function of `numFree` and `numOccupied`. -/
theorem C21_depends_only_on_counts (h : List (OccOp Nat E)) (hs : ∀ op ∈ h, Substantial op) (m : Ivm)
    (hw : (OccOp.run h).numFree + (OccOp.run h).numOccupied ≤ 2 ^ 64) :
    (OccOp.run h).occupancy m = occupancySpec m (OccOp.run h).numFree (OccOp.run h).numOccupied := by
  rw [Occ.numOccupied_eq] at hw ⊢
  obtain ⟨h1, h2⟩ := OccOp.run_data hs
  unfold Occ.numFree at hw ⊢
  unfold occupancySpec Occ.occupancy
  by_cases e : (OccOp.run h).samples = 0
  · rw [h1 e, e]; simp
  · rw [h2 e]
    have hc : 0 < (OccOp.run h).samples.card := Multiset.card_pos.2 e
    rw [if_neg (by omega)]
    simp only
    rw [wrapMinusOne_eq hc hw]
    unfold logOddsFrom
    rw [Nat.cast_sub (by omega), Nat.cast_add]
    norm_num

/-- **C21** (range). 0 before the first hit, strictly between 0 and 1 afterwards (for any number of updates, with or without counter overflow). -/
theorem C21_range (h : List (OccOp Nat E)) (hs : ∀ op ∈ h, Substantial op) (m : Ivm) :
    ((OccOp.run h).numOccupied = 0 → (OccOp.run h).occupancy m = 0) ∧
    (0 < (OccOp.run h).numOccupied → 0 < (OccOp.run h).occupancy m ∧ (OccOp.run h).occupancy m < 1) := by
  obtain ⟨h1, h2⟩ := OccOp.run_data hs
  rw [Occ.numOccupied_eq]
  unfold Occ.occupancy
  constructor
  · intro e
    rw [h1 (Multiset.card_eq_zero.1 e)]
  · intro e
    rw [h2 (Multiset.card_pos.1 e)]
    exact ⟨logOddsFrom_pos _, logOddsFrom_lt_one _⟩

/-- **C21** (monotone). More hits and fewer free observations never decrease the occupancy. -/
theorem C21_monotone (h h' : List (OccOp Nat E)) (hs : ∀ op ∈ h, Substantial op) (hs' : ∀ op ∈ h', Substantial op) (m : Ivm)
    (hf : m.logFree ≤ m.logPrior) (ho : m.logPrior ≤ m.logOcc)
    (hw : (OccOp.run h).numFree + (OccOp.run h).numOccupied ≤ 2 ^ 64) (hw' : (OccOp.run h').numFree + (OccOp.run h').numOccupied ≤ 2 ^ 64)
    (h1 : (OccOp.run h').numFree ≤ (OccOp.run h).numFree) (h2 : (OccOp.run h).numOccupied ≤ (OccOp.run h').numOccupied) :
    (OccOp.run h).occupancy m ≤ (OccOp.run h').occupancy m := by
  by_cases e : (OccOp.run h).numOccupied = 0
  · rw [(C21_range h hs m).1 e]
    rcases Nat.eq_zero_or_pos (OccOp.run h').numOccupied with e' | e'
    · rw [(C21_range h' hs' m).1 e']
    · exact ((C21_range h' hs' m).2 e').1.le
  · rw [C21_depends_only_on_counts h hs m hw, C21_depends_only_on_counts h' hs' m hw']
    unfold occupancySpec
    rw [if_neg e, if_neg (by omega)]
    apply logOddsFrom_le
    have a1 : ((OccOp.run h').numFree : ℝ) ≤ (OccOp.run h).numFree := by exact_mod_cast h1
    have a2 : ((OccOp.run h).numOccupied : ℝ) ≤ (OccOp.run h').numOccupied := by exact_mod_cast h2
    have b1 := mul_le_mul_of_nonneg_right a1 (sub_nonneg.2 hf)
    have b2 := mul_le_mul_of_nonneg_right a2 (sub_nonneg.2 ho)
    nlinarith

/-- **C21** (strictly increasing in hits). Recording one more hit strictly increases the occupancy if hits are more likely than the prior. -/
theorem C21_hit_increases (h : List (OccOp Nat E)) (hs : ∀ op ∈ h, Substantial op) (m : Ivm) (x : E) (ho : m.logPrior < m.logOcc)
    (hw : (OccOp.run h).numFree + (OccOp.run h).numOccupied < 2 ^ 64) :
    (OccOp.run h).occupancy m < (OccOp.run (h ++ [.point x])).occupancy m := by
  have hs' : ∀ op ∈ h ++ [OccOp.point x], Substantial op := by
    intro op ho; rcases List.mem_append.1 ho with ho | ho
    · exact hs op ho
    · rw [List.mem_singleton] at ho; subst ho; trivial
  have c := C21_counts (h ++ [.point x])
  have c0 := C21_counts h
  simp only [List.map_append, List.sum_append, List.map_cons, List.map_nil, List.sum_cons, List.sum_nil, freeOf, hitsOf,
    Multiset.card_add, add_zero, Multiset.card_singleton] at c
  rw [← c0.1, ← c0.2.2] at c
  by_cases e : (OccOp.run h).numOccupied = 0
  · rw [(C21_range h hs m).1 e]
    exact ((C21_range _ hs' m).2 (by rw [c.2.2]; omega)).1
  · rw [C21_depends_only_on_counts h hs m hw.le, C21_depends_only_on_counts _ hs' m (by rw [c.1, c.2.2]; omega), c.1, c.2.2]
    unfold occupancySpec
    rw [if_neg e, if_neg (by omega)]
    apply logOddsFrom_lt
    push_cast
    nlinarith

/-- **C21** (strictly decreasing in free observations). -/
theorem C21_free_decreases (h : List (OccOp Nat E)) (hs : ∀ op ∈ h, Substantial op) (m : Ivm) (n : Nat) (hn : 0 < n) (hf : m.logFree < m.logPrior)
    (hhit : 0 < (OccOp.run h).numOccupied) (hw : (OccOp.run h).numFree + n + (OccOp.run h).numOccupied ≤ 2 ^ 64) :
    (OccOp.run (h ++ [.free n])).occupancy m < (OccOp.run h).occupancy m := by
  have hs' : ∀ op ∈ h ++ [OccOp.free n], Substantial op := by
    intro op ho; rcases List.mem_append.1 ho with ho | ho
    · exact hs op ho
    · rw [List.mem_singleton] at ho; subst ho; trivial
  have c := C21_counts (h ++ [.free n])
  have c0 := C21_counts h
  simp only [List.map_append, List.sum_append, List.map_cons, List.map_nil, List.sum_cons, List.sum_nil, freeOf, hitsOf,
    add_zero] at c
  rw [← c0.1, ← c0.2.2] at c
  rw [C21_depends_only_on_counts h hs m (by omega), C21_depends_only_on_counts _ hs' m (by rw [c.1, c.2.2]; omega), c.1, c.2.2]
  unfold occupancySpec
  rw [if_neg (by omega), if_neg (by omega)]
  apply logOddsFrom_lt
  push_cast
  have : (0 : ℝ) < n := by exact_mod_cast hn
  nlinarith

/-- Non-vacuity of the hypotheses above: a mixed history of seven observations. -/
example : let h : List (OccOp Nat Nat) := [.free 2, .point 5, .dist {1, 2}, .free 1, .ptr none, .ptr (some {7})]
    (∀ op ∈ h, Substantial op) ∧ (OccOp.run h).numFree = 3 ∧ (OccOp.run h).numOccupied = 4 ∧
    (OccOp.run h).numFree + (OccOp.run h).numOccupied < 2 ^ 64 := by
  refine ⟨?_, ?_, ?_, ?_⟩
  · intro op h; simp at h
    rcases h with rfl | rfl | rfl | rfl | rfl | rfl <;> simp [Substantial]
  · rw [(C21_counts _).1]; simp [freeOf]
  · rw [(C21_counts _).2.2]; simp [hitsOf]
  · rw [(C21_counts _).1, (C21_counts _).2.2]; simp [freeOf, hitsOf]

/-- The hypothesis `Substantial` is needed: merging a distribution without samples makes the occupancy 1/2 although no hit was recorded (the counter `0 + 0 - 1`
even wraps around to 2^64 - 1). -/
theorem C21_empty_distribution_refuted :
    ∃ (h : List (OccOp Nat E)) (m : Ivm), (OccOp.run h).numOccupied = 0 ∧ (OccOp.run h).occupancy m = 1 / 2 ∧ wrapMinusOne 0 0 = 2 ^ 64 - 1 := by
  refine ⟨[.dist 0], ⟨0, 0, 0⟩, rfl, ?_, by decide⟩
  simp [OccOp.run, OccOp.step, Occ.updateOccupied, Occ.new, Occ.occupancy, logOddsFrom]
  norm_num

/-! weighted occupancy distributions -/
variable {P : Type}

/-- **C21** (weighted, weights). `weightFree` and `weightOccupied` are the sums of the weights of the updates. -/
theorem C21_weights (h : List (OccOp ℝ (P × ℝ))) :
    (OccOp.run h).numFree = (h.map freeOf).sum ∧ (OccOp.run h).weightOccupied = (((h.map hitsOf).sum).map Prod.snd).sum := by
  refine ⟨OccOp.run_free h, ?_⟩
  rw [← OccOp.run_samples]
  unfold Occ.weightOccupied Occ.samples
  cases (OccOp.run h).data <;> simp

theorem C21_weighted_order_irrelevant {h h' : List (OccOp ℝ (P × ℝ))} (hp : h.Perm h') (m : Ivm) :
    OccOp.run h = OccOp.run h' ∧ (OccOp.run h).occupancyW m = (OccOp.run h').occupancyW m := by
  have : OccOp.run h = OccOp.run h' := by
    rw [OccOp.run_eq, OccOp.run_eq]; exact (hp.map _).sum_eq
  exact ⟨this, by rw [this]⟩

/-- all hits have positive weight -/
def PosWeights (h : List (OccOp ℝ (P × ℝ))) : Prop := ∀ x ∈ (h.map hitsOf).sum, 0 < x.2

theorem weight_pos_iff {h : List (OccOp ℝ (P × ℝ))} (hp : PosWeights h) :
    (0 < (OccOp.run h).weightOccupied ↔ (OccOp.run h).samples ≠ 0) ∧ 0 ≤ (OccOp.run h).weightOccupied := by
  rw [(C21_weights h).2, OccOp.run_samples]
  unfold PosWeights at hp
  generalize (h.map hitsOf).sum = s at hp
  induction s using Multiset.induction_on with
  | empty => simp
  | cons a s ih =>
    obtain ⟨_, h2⟩ := ih (fun x hx => hp x (Multiset.mem_cons_of_mem hx))
    have := hp a (Multiset.mem_cons_self a s)
    simp only [Multiset.map_cons, Multiset.sum_cons]
    refine ⟨⟨fun _ => Multiset.cons_ne_zero, fun _ => by linarith⟩, by linarith⟩

/-- **C21** (weighted, depends only on the weights). -/
theorem C21_weighted_depends_only_on_weights (h : List (OccOp ℝ (P × ℝ))) (hs : ∀ op ∈ h, Substantial op) (hp : PosWeights h) (m : Ivm) :
    (OccOp.run h).occupancyW m =
      if (OccOp.run h).weightOccupied = 0 then 0 else
        1 - 1 / (1 + Real.exp ((OccOp.run h).numFree * m.logFree + (OccOp.run h).weightOccupied * m.logOcc -
          ((OccOp.run h).numFree + (OccOp.run h).weightOccupied - 1) * m.logPrior)) := by
  obtain ⟨h1, h2⟩ := OccOp.run_data hs
  obtain ⟨h3, h4⟩ := weight_pos_iff hp
  by_cases e : (OccOp.run h).samples = 0
  · have : (OccOp.run h).weightOccupied = 0 := by unfold Occ.weightOccupied; rw [h1 e]
    rw [if_pos this]; unfold Occ.occupancyW; rw [h1 e]
  · rw [if_neg (h3.2 e).ne']
    unfold Occ.occupancyW Occ.weightOccupied
    rw [h2 e]; rfl

/-- **C21** (weighted, range). -/
theorem C21_weighted_range (h : List (OccOp ℝ (P × ℝ))) (hs : ∀ op ∈ h, Substantial op) (m : Ivm) :
    ((OccOp.run h).samples = 0 → (OccOp.run h).occupancyW m = 0) ∧
    ((OccOp.run h).samples ≠ 0 → 0 < (OccOp.run h).occupancyW m ∧ (OccOp.run h).occupancyW m < 1) := by
  obtain ⟨h1, h2⟩ := OccOp.run_data hs
  unfold Occ.occupancyW
  exact ⟨fun e => by rw [h1 e], fun e => by rw [h2 e]; exact ⟨logOddsFrom_pos _, logOddsFrom_lt_one _⟩⟩

/-- **C21** (weighted, monotone). -/
theorem C21_weighted_monotone (h h' : List (OccOp ℝ (P × ℝ))) (hs : ∀ op ∈ h, Substantial op) (hs' : ∀ op ∈ h', Substantial op)
    (hp : PosWeights h) (hp' : PosWeights h') (m : Ivm) (hf : m.logFree ≤ m.logPrior) (ho : m.logPrior ≤ m.logOcc)
    (h1 : (OccOp.run h').numFree ≤ (OccOp.run h).numFree) (h2 : (OccOp.run h).weightOccupied ≤ (OccOp.run h').weightOccupied) :
    (OccOp.run h).occupancyW m ≤ (OccOp.run h').occupancyW m := by
  by_cases e : (OccOp.run h).samples = 0
  · rw [(C21_weighted_range h hs m).1 e]
    by_cases e' : (OccOp.run h').samples = 0
    · rw [(C21_weighted_range h' hs' m).1 e']
    · exact ((C21_weighted_range h' hs' m).2 e').1.le
  · have hpos := (weight_pos_iff hp).1.2 e
    rw [C21_weighted_depends_only_on_weights h hs hp, C21_weighted_depends_only_on_weights h' hs' hp', if_neg hpos.ne', if_neg (hpos.trans_le h2).ne']
    apply logOddsFrom_le
    have b1 := mul_le_mul_of_nonneg_right h1 (sub_nonneg.2 hf)
    have b2 := mul_le_mul_of_nonneg_right h2 (sub_nonneg.2 ho)
    nlinarith

example : let h : List (OccOp ℝ (Nat × ℝ)) := [.free (1/2), .point (5, 1), .dist {(1, 2), (2, 1/4)}]
    (∀ op ∈ h, Substantial op) ∧ PosWeights h := by
  refine ⟨?_, ?_⟩
  · intro op h; simp at h
    rcases h with rfl | rfl | rfl <;> simp [Substantial]
  · intro x hx
    simp [hitsOf] at hx
    rcases hx with rfl | rfl | rfl <;> norm_num

end C21

/-! ### C22 (the distributions; see `Verif.Props.Sampling` for the maps) -/

/-- **C22** (distributions). `getOccupancy` throws exactly for a null inverse model, whatever the object. -/
theorem C22_occupancy_null_model {E P : Type} (o : Occ Nat E) (o' : Occ ℝ (P × ℝ)) (m : Option Ivm) :
    ((∃ e, o.occupancyPtr m = .error e) ↔ m = none) ∧ ((∃ e, o'.occupancyWPtr m = .error e) ↔ m = none) := by
  cases m with
  | none => exact ⟨⟨fun _ => rfl, fun _ => ⟨_, rfl⟩⟩, ⟨fun _ => rfl, fun _ => ⟨_, rfl⟩⟩⟩
  | some m => refine ⟨⟨?_, fun h => by cases h⟩, ⟨?_, fun h => by cases h⟩⟩ <;> rintro ⟨e, h⟩ <;> cases h

/-! ### C23 -/
section C23
variable {W E : Type} [AddCommMonoid W]

/-- **C23** is false (merge). Merging `b` into an object `a` without a distribution makes both share it: a later update of `a` changes `b`. -/
theorem C23_merge_refuted (x : E) :
    ∃ (h : List (MemOp Nat E)) (op : MemOp Nat E), target op = 0 ∧
      (OccMem.run true (h ++ [op]) OccMem.new).view 1 ≠ (OccMem.run true h OccMem.new).view 1 := by
  refine ⟨[.point 1 x, .merge 0 1], .point 0 x, rfl, ?_⟩
  intro h
  have h2 := congrArg Occ.numOccupied h
  simp [OccMem.run, OccMem.step, OccMem.view, OccMem.new, OccMem.alloc, Occ.numOccupied] at h2

/-- **C23** is false (copies of weighted occupancy distributions). A copy shares its distribution with the original. -/
theorem C23_weighted_copy_refuted (x : E) :
    ∃ (h : List (MemOp W E)) (op : MemOp W E), target op = 1 ∧
      (OccMem.run false (h ++ [op]) OccMem.new).view 0 ≠ (OccMem.run false h OccMem.new).view 0 := by
  refine ⟨[.point 0 x, .copy 1 0], .point 1 x, rfl, ?_⟩
  intro h
  have h2 := congrArg Occ.numOccupied h
  simp [OccMem.run, OccMem.step, OccMem.view, OccMem.new, OccMem.alloc, Occ.numOccupied] at h2

/-- **C23** (what holds). In every history in which no operation makes objects share (see `Spec.NoShare`), all objects behave as if each owned its contents. For
`OccupancyDistribution` (`deep = true`) this covers all updates, copies and assignments, and all merges except those into an object without distribution. Missing from the full
property: merges into objects without distribution, and copies of weighted occupancy distributions, for which it is false. -/
theorem C23_value_semantics_partial (deep : Bool) (h : List (MemOp W E)) (hn : NoShareRun deep h (fun _ => Occ.new)) (v : Nat) :
    (OccMem.run deep h OccMem.new).view v = envRun h (fun _ => Occ.new) v :=
  congrFun (OccMem.run_refines deep h OccMem.new OccMem.sep_new hn).2 v

/-- histories of `OccupancyDistribution` without merges are covered -/
theorem C23_noShare_without_merge (h : List (MemOp W E)) (e : Env W E) (hm : ∀ op ∈ h, ∀ v w, op ≠ .merge v w) : NoShareRun true h e := by
  induction h generalizing e with
  | nil => trivial
  | cons op h ih =>
    refine ⟨?_, ih _ (fun o ho => hm o (List.mem_cons_of_mem _ ho))⟩
    have := hm op (List.mem_cons_self ..)
    cases op with
    | merge v w => exact absurd rfl (this v w)
    | copy v w => exact Or.inl rfl
    | _ => trivial

/-- **C23** (copies of `OccupancyDistribution`). After any history of updates, copies and assignments, an update of one object does not change any other object. -/
theorem C23_copies_independent_partial (h : List (MemOp W E)) (op : MemOp W E) (hm : ∀ o ∈ h ++ [op], ∀ v w, o ≠ .merge v w) (v : Nat) (hv : v ≠ target op) :
    (OccMem.run true (h ++ [op]) OccMem.new).view v = (OccMem.run true h OccMem.new).view v := by
  rw [C23_value_semantics_partial true _ (C23_noShare_without_merge _ _ hm),
    C23_value_semantics_partial true _ (C23_noShare_without_merge _ _ fun o ho => hm o (List.mem_append_left _ ho))]
  unfold envRun
  rw [List.foldl_append, List.foldl_cons, List.foldl_nil]
  cases op <;> exact Function.update_of_ne hv ..

/-- a history with copies and merges that is covered -/
example : NoShareRun true ([.point 0 1, .copy 1 0, .point 1 2, .merge 0 1, .free 1 3, .copy 2 0, .merge 2 5] : List (MemOp Nat Nat)) (fun _ => Occ.new) := by
  simp [NoShareRun, NoShare, envStep, addSamples, Occ.new, together]

end C23
end Ndt
