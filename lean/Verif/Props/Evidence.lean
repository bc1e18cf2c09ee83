import Verif.Spec.Evidence
import Verif.Props.AnySampling
import Verif.Props.OccHistory
import Verif.Props.SamplingRounded

/-! Property theorems C108: the occupancy is Bayes' rule, vanished obstacles are forgotten and new ones are learned. -/

namespace Ndt

open Spec St

section bayes

theorem odds_pos {p : ℝ} (h : 0 < p ∧ p < 1) : 0 < p / (1 - p) := div_pos h.1 (by linarith [h.2])

theorem logOddsFrom_eq (l : ℝ) : logOddsFrom l = Real.exp l / (1 + Real.exp l) := by
  unfold logOddsFrom
  have := Real.exp_pos l
  field_simp
  ring

theorem logOddsFrom_logit {p : ℝ} (h : 0 < p ∧ p < 1) : logOddsFrom (logOdds p) = p := by
  rw [logOddsFrom_eq, logOdds, Real.exp_log (odds_pos h)]
  have : 1 - p ≠ 0 := by linarith [h.2]
  field_simp
  ring

/-- The rule `bayes` is Bayes' rule for every pair of likelihoods that turns the prior into `q`. -/
theorem bayes_of_likelihoods {p b l1 l0 : ℝ} (hp : 0 < p ∧ p < 1) (hb : 0 ≤ b ∧ b ≤ 1) (h1 : 0 < l1) (h0 : 0 < l0) : bayes p b (posterior l1 l0 p) = posterior l1 l0 b := by
  have e1 : 0 < 1 - p := by linarith [hp.2]
  have e2 : 0 < p * l1 + (1 - p) * l0 := by have := hp.1; positivity
  have e3 : 0 < b * l1 + (1 - b) * l0 := by
    rcases hb.1.eq_or_lt with h | h
    · rw [← h]; simpa using h0
    · have : 0 ≤ (1 - b) * l0 := mul_nonneg (by linarith [hb.2]) h0.le
      have : 0 < b * l1 := mul_pos h h1
      linarith
  have hp0 := hp.1.ne'
  unfold bayes posterior
  have ha : p * l1 / (p * l1 + (1 - p) * l0) / p = l1 / (p * l1 + (1 - p) * l0) := by field_simp
  have hb' : (1 - p * l1 / (p * l1 + (1 - p) * l0)) / (1 - p) = l0 / (p * l1 + (1 - p) * l0) := by
    have := e1.ne'
    have := e2.ne'
    rw [div_eq_div_iff e1.ne' e2.ne', sub_mul, div_mul_cancel₀ _ e2.ne']
    ring
  rw [ha, hb']
  have := e2.ne'
  have := e3.ne'
  rw [div_eq_div_iff (by rw [← mul_div_assoc, ← mul_div_assoc, ← add_div]; exact (div_pos e3 e2).ne') e3.ne']
  field_simp

theorem bayes_logOdds {p q : ℝ} (hp : 0 < p ∧ p < 1) (hq : 0 < q ∧ q < 1) (l : ℝ) : bayes p (logOddsFrom l) q = logOddsFrom (l + (logOdds q - logOdds p)) := by
  have e1 : 0 < 1 - p := by linarith [hp.2]
  have e2 : 0 < 1 - q := by linarith [hq.2]
  have hx := Real.exp_pos l
  rw [logOddsFrom_eq, logOddsFrom_eq, Real.exp_add, Real.exp_sub, logOdds, logOdds, Real.exp_log (odds_pos hq), Real.exp_log (odds_pos hp)]
  unfold bayes posterior
  generalize Real.exp l = x at *
  have hp0 := hp.1
  have hq0 := hq.1
  have e3 : 1 - x / (1 + x) = 1 / (1 + x) := by field_simp; ring
  rw [e3]
  have h1 : 0 < x / (1 + x) * (q / p) + 1 / (1 + x) * ((1 - q) / (1 - p)) := by positivity
  have h2 : 0 < 1 + x * (q / (1 - q) / (p / (1 - p))) := by positivity
  rw [div_eq_div_iff h1.ne' h2.ne']
  field_simp
  ring

theorem bayes_fold {p : ℝ} (hp : 0 < p ∧ p < 1) : ∀ (qs : List ℝ), (∀ q ∈ qs, 0 < q ∧ q < 1) → ∀ l, qs.foldl (bayes p) (logOddsFrom l) = logOddsFrom (l + (qs.map fun q => logOdds q - logOdds p).sum)
  | [], _, l => by simp
  | q :: qs, h, l => by
    rw [List.foldl_cons, bayes_logOdds hp (h q (List.mem_cons_self ..)), bayes_fold hp qs fun q hq => h q (List.mem_cons_of_mem _ hq)]
    rw [List.map_cons, List.sum_cons, add_assoc]

end bayes

theorem observations_sum {E : Type} (m : SensorModel) (f : ℝ → ℝ) : ∀ h : List (OccOp Nat E),
    ((h.flatMap (observations m)).map f).sum = ((h.map freeOf).sum : Nat) * f m.free + (((h.map hitsOf).sum).card : Nat) * f m.occ
  | [] => by simp
  | op :: h => by
    rw [List.flatMap_cons, List.map_append, List.sum_append, observations_sum m f h, List.map_cons, List.sum_cons, List.map_cons, List.sum_cons, Multiset.card_add]
    push_cast
    have : ((observations m op).map f).sum = (freeOf op : Nat) * f m.free + ((hitsOf op).card : Nat) * f m.occ := by
      rcases op with n | x | s | _ | s <;> simp [observations, freeOf, hitsOf]
    rw [this]
    ring

theorem observations_proper {E : Type} (m : SensorModel) (hm : m.Proper) (h : List (OccOp Nat E)) : ∀ q ∈ h.flatMap (observations m), 0 < q ∧ q < 1 := by
  intro q hq
  obtain ⟨op, _, h2⟩ := List.mem_flatMap.1 hq
  rcases op with n | x | s | _ | s <;> simp only [observations, List.mem_replicate, List.mem_singleton, List.not_mem_nil] at h2
  · rw [h2.2]; exact hm.free
  · rw [h2]; exact hm.occ
  · rw [h2.2]; exact hm.occ
  · rw [h2.2]; exact hm.occ

theorem occupancySpec_bayes (m : SensorModel) (hm : m.Proper) (nf no : Nat) (h : 0 < no) (qs : List ℝ) (hq : ∀ q ∈ qs, 0 < q ∧ q < 1)
    (hs : (qs.map fun q => logOdds q - logOdds m.prior).sum = nf * (logOdds m.free - logOdds m.prior) + no * (logOdds m.occ - logOdds m.prior)) :
    occupancySpec m.ivm nf no = qs.foldl (bayes m.prior) m.prior := by
  have e : qs.foldl (bayes m.prior) m.prior = qs.foldl (bayes m.prior) (logOddsFrom (logOdds m.prior)) := by rw [logOddsFrom_logit hm.prior]
  rw [e, bayes_fold hm.prior qs hq, hs]
  unfold occupancySpec SensorModel.ivm
  rw [if_neg h.ne']
  unfold logOddsFrom
  congr 4
  ring

/-- **C108** (Bayes' rule). After any history of updates of a distribution with at least one hit, the occupancy is the belief that the recursive Bayes filter reaches: it starts with the prior probability and applies Bayes' rule
once for every recorded miss and hit, in the order of the updates. -/
theorem C108_bayes {E : Type} (h : List (OccOp Nat E)) (hs : ∀ op ∈ h, Substantial op) (m : SensorModel) (hm : m.Proper) (hw : (OccOp.run h).numFree + (OccOp.run h).numOccupied ≤ 2 ^ 64)
    (hhit : 0 < (OccOp.run h).numOccupied) : (OccOp.run h).occupancy m.ivm = (h.flatMap (observations m)).foldl (bayes m.prior) m.prior := by
  rw [C21_depends_only_on_counts h hs m.ivm hw]
  refine occupancySpec_bayes m hm _ _ hhit _ (observations_proper m hm h) ?_
  obtain ⟨h1, _, h3⟩ := C21_counts h
  rw [observations_sum, h1, h3]

/-- **C108** (Bayes' rule, maps). The same for the distributions of a map, after any history: the order of misses and hits does not matter, their numbers are those of C27. -/
theorem C108_bayes_map {K : Type} [Field K] [LinearOrder K] [IsStrictOrderedRing K] [FloorRing K] {d : Nat} (k : Kind d) (g : Geo K d) (defRay : Pt K d → Pt K d → List (Idx d)) (exp : Occ Nat (Pt K d) → Bool)
    (ops : List (OccMapOp K d Nat (Pt K d))) (st : St k.backend (Occ Nat (Pt K d))) (h : occRun (occFlavour K d) g k.dyn defRay exp ops (k.init _) = some st)
    (c : Nat) (hc : c < 2 ^ d) (i : Idx d) (o : Occ Nat (Pt K d)) (ho : st.content c i = some o) (hhit : 0 < o.numOccupied) (m : SensorModel) (hm : m.Proper) (hw : o.numFree + o.numOccupied ≤ 2 ^ 64)
    (qs : List ℝ) (hqs : qs.Perm (List.replicate o.numFree m.free ++ List.replicate o.numOccupied m.occ)) : o.occupancy m.ivm = qs.foldl (bayes m.prior) m.prior := by
  rw [Occ.numOccupied_eq] at *
  rw [C27_value_any_history k g defRay exp ops st h c hc i o ho m.ivm hw]
  refine occupancySpec_bayes m hm _ _ hhit _ ?_ ?_
  · intro q hq
    rcases List.mem_append.1 (hqs.mem_iff.1 hq) with h | h
    · rw [(List.mem_replicate.1 h).2]; exact hm.free
    · rw [(List.mem_replicate.1 h).2]; exact hm.occ
  · rw [(hqs.map _).sum_eq]
    simp

/-! #### what later scans add to a reachable map -/

section later
variable {K : Type} [Field K] [LinearOrder K] [IsStrictOrderedRing K] [FloorRing K] {d : Nat} {W E : Type} [AddCommMonoid W]

theorem later_value (fl : Flavour K d W E) (k : Kind d) (g : Geo K d) (defRay : Pt K d → Pt K d → List (Idx d)) (exp : Occ W E → Bool) (st0 st : St k.backend (Occ W E)) (h0 : OccReachable fl k g defRay exp st0)
    (ops : List (OccMapOp K d W E)) (hp : ∀ op ∈ ops, op.Plain) (h : occRun fl g k.dyn defRay exp ops st0 = some st) (c : Nat) (hc : c < 2 ^ d) (i : Idx d) :
    (st.content c i).getD Occ.new = (st0.content c i).getD Occ.new + ((scansOf ops).map fun s =>
      (((insertEffects fl g ((k.init (Occ W E)).abs.valid k.dyn) s).filter (fun e => decide (generateIndex e.1 c = i))).map Prod.snd).sum).sum := by
  have e := occRun_spec k.lawful fl g k.dyn defRay exp ops st0 st h0.rinv hp h c hc i
  rw [show st0.abs.valid k.dyn = (k.init (Occ W E)).abs.valid k.dyn from funext h0.keeps.valid] at e
  refine (show _ = st.abs.val c i from rfl).trans (e.trans ?_)
  refine congrArg (st0.abs.val c i + ·) ?_
  clear e h hp
  induction ops with
  | nil => rfl
  | cons op ops ih =>
    rw [List.map_cons, List.sum_cons, ih]
    cases op with
    | insert s => rfl
    | insertVisible s o v => exact zero_add _
    | core op => exact zero_add _

theorem later_misses (k : Kind d) (g : Geo K d) (hr : 0 < g.r) (defRay : Pt K d → Pt K d → List (Idx d)) (exp : Occ Nat (Pt K d) → Bool) (st0 st : St k.backend (Occ Nat (Pt K d)))
    (h0 : OccReachable (occFlavour K d) k g defRay exp st0) (ops : List (OccMapOp K d Nat (Pt K d))) (hp : ∀ op ∈ ops, op.Plain) (h : occRun (occFlavour K d) g k.dyn defRay exp ops st0 = some st)
    (c : Nat) (hc : c < 2 ^ d) (i : Idx d) :
    ((st.content c i).getD Occ.new).numFree = ((st0.content c i).getD Occ.new).numFree + ((scansOf ops).map fun s => Spec.misses false g k s c i).sum := by
  rw [later_value _ k g defRay exp st0 st h0 ops hp h c hc i]
  refine (map_add Occ.freeHom _ _).trans ?_
  refine congrArg (_ + ·) ?_
  refine (map_list_sum Occ.freeHom _).trans ?_
  rw [List.map_map]
  refine congrArg List.sum (List.map_congr_left fun s _ => ?_)
  refine (insertEffects_misses (occFlavour K d) occFlavour_mean g hr k s c i).trans ?_
  unfold Spec.misses
  refine Finset.sum_congr rfl fun b _ => ?_
  rw [smul_eq_mul, show (occFlavour K d).sample = id from rfl, Multiset.map_id]
  rfl

theorem later_misses_weighted (k : Kind d) (g : Geo K d) (hr : 0 < g.r) (defRay : Pt K d → Pt K d → List (Idx d)) (exp : Occ K (Pt K d × K) → Bool) (st0 st : St k.backend (Occ K (Pt K d × K)))
    (h0 : OccReachable (weightedFlavour K d) k g defRay exp st0) (ops : List (OccMapOp K d K (Pt K d × K))) (hp : ∀ op ∈ ops, op.Plain) (h : occRun (weightedFlavour K d) g k.dyn defRay exp ops st0 = some st)
    (c : Nat) (hc : c < 2 ^ d) (i : Idx d) :
    ((st.content c i).getD Occ.new).numFree = ((st0.content c i).getD Occ.new).numFree + (((scansOf ops).map fun s => Spec.misses true g k s c i).sum : Nat) := by
  rw [later_value _ k g defRay exp st0 st h0 ops hp h c hc i]
  refine (map_add Occ.freeHom _ _).trans ?_
  refine congrArg (_ + ·) ?_
  refine (map_list_sum Occ.freeHom _).trans ?_
  rw [List.map_map, Nat.cast_list_sum, List.map_map]
  refine congrArg List.sum (List.map_congr_left fun s _ => ?_)
  refine (insertEffects_misses (weightedFlavour K d) weightedFlavour_mean g hr k s c i).trans ?_
  show _ = ((Spec.misses true g k s c i : Nat) : K)
  rw [Spec.misses, Nat.cast_sum]
  refine Finset.sum_congr rfl fun b _ => ?_
  rw [weightedFlavour_amount, nsmul_eq_mul, Nat.cast_mul]
  rfl

open scoped Classical in
theorem later_samples (fl : Flavour K d W E) (k : Kind d) (g : Geo K d) (hr : 0 < g.r) (defRay : Pt K d → Pt K d → List (Idx d)) (exp : Occ W E → Bool) (st0 st : St k.backend (Occ W E))
    (h0 : OccReachable fl k g defRay exp st0) (ops : List (OccMapOp K d W E)) (hp : ∀ op ∈ ops, op.Plain) (h : occRun fl g k.dyn defRay exp ops st0 = some st) (c : Nat) (hc : c < 2 ^ d) (i : Idx d) :
    ((st.content c i).getD Occ.new).samples = ((st0.content c i).getD Occ.new).samples + ((((scansOf ops).map fun s => Spec.hits g k s).sum).filter (Spec.InCell g.r c i)).map fl.sample := by
  rw [later_value fl k g defRay exp st0 st h0 ops hp h c hc i]
  refine (map_add Occ.samplesHom _ _).trans ?_
  refine congrArg (_ + ·) ?_
  refine (map_list_sum Occ.samplesHom _).trans ?_
  rw [List.map_map]
  induction scansOf ops with
  | nil => rfl
  | cons s l ih =>
    simp only [List.map_cons, List.sum_cons, Multiset.filter_add, Multiset.map_add]
    rw [ih]
    refine congrArg (· + _) ?_
    refine (insertEffects_samples fl g _ s (fun b => decide (generateIndex b c = i))).trans ?_
    refine congrArg (Multiset.map fl.sample) ?_
    unfold Spec.hits
    rw [← accList_eq (Occ W E) g hr k, Multiset.filter_coe]
    refine congrArg _ (List.filter_congr fun p _ => ?_)
    rw [Bool.eq_iff_iff, decide_eq_true_iff, decide_eq_true_iff]
    exact C01_point_in_selected_cell hr p c i

theorem exists_hit (g : Geo K d) (hr : 0 < g.r) (k : Kind d) (s : Scan K d W) (b : Idx d) (h : b ∈ hitBundles g k s) : 1 ≤ (hitsIn g k s b).card := by
  classical
  unfold hitBundles at h
  rw [Multiset.mem_toFinset, Multiset.mem_map] at h
  obtain ⟨p, hp, h⟩ := h
  rw [floor_bundle] at h
  refine Multiset.card_pos_iff_exists_mem.2 ⟨p, ?_⟩
  unfold hitsIn
  exact Multiset.mem_filter.2 ⟨hp, (C01_bundle_contains_point hr p b).1 h⟩

theorem misses_of_ray (skip : Bool) (g : Geo K d) (hr : 0 < g.r) (k : Kind d) (s : Scan K d W) (b : Idx d) (h : LooksThrough skip g k s b) (c : Nat) (i : Idx d) (hi : BundleInCell g.r b c i) :
    1 ≤ misses skip g k s c i := by
  classical
  obtain ⟨hv, hs, b', hb', hray⟩ := h
  unfold misses
  refine le_trans ?_ (Finset.single_le_sum (f := fun b => _ * _) (fun _ _ => Nat.zero_le _) hb')
  refine Nat.mul_pos ?_ (exists_hit g hr k s b' hb')
  rw [List.length_pos_iff_exists_mem]
  exact ⟨b, List.mem_filter.2 ⟨hray, decide_eq_true ⟨hv, hi, hs⟩⟩⟩

theorem count_le_sum {α : Type} (P : α → Bool) (f : α → Nat) : ∀ l : List α, (∀ x ∈ l, P x = true → 1 ≤ f x) → l.countP P ≤ (l.map f).sum
  | [], _ => by simp
  | x :: l, h => by
    rw [List.countP_cons, List.map_cons, List.sum_cons]
    have := count_le_sum P f l fun y hy => h y (List.mem_cons_of_mem _ hy)
    have h1 := h x (List.mem_cons_self ..)
    split
    · have := h1 (by assumption); omega
    · omega

open scoped Classical in
theorem clear_samples (g : Geo K d) (k : Kind d) (l : List (Scan K d W)) (b : Idx d) (h : ∀ s ∈ l, ClearOf g k s b) (c : Nat) (hc : c < 2 ^ d) (i : Idx d) (hi : BundleInCell g.r b c i) :
    ((l.map fun s => hits g k s).sum).filter (InCell g.r c i) = 0 := by
  induction l with
  | nil => rfl
  | cons s l ih =>
    rw [List.map_cons, List.sum_cons, Multiset.filter_add, ih fun s hs => h s (List.mem_cons_of_mem _ hs), add_zero, Multiset.filter_eq_nil]
    exact fun p hp => h s (List.mem_cons_self ..) p hp c hc i hi

/-- samples lie between 0 and a bound of the values of the bundle -/
theorem sample_bounded {M : Type} (fl : Flavour K d W E) (k : Kind d) (g : Geo K d) (hr : 0 < g.r) (defRay : Pt K d → Pt K d → List (Idx d)) (exp : Occ W E → Bool) (st : St k.backend (Occ W E))
    (hst : OccReachable fl k g defRay exp st) (dens : Multiset E → Pt K d → K) (occ : M → Occ W E → K) (m : M) (p : Pt K d) (b : Idx d) (hb : Spec.InBundle g.r b (g.toMap p)) (B : K) (hB : 0 ≤ B)
    (hv : ∀ c, c < 2 ^ d → 0 ≤ (((st.content c (generateIndex b c)).getD Occ.new).data.elim 0 fun s => dens s (g.toMap p) * occ m ((st.content c (generateIndex b c)).getD Occ.new)) ∧
      (((st.content c (generateIndex b c)).getD Occ.new).data.elim 0 fun s => dens s (g.toMap p) * occ m ((st.content c (generateIndex b c)).getD Occ.new)) ≤ B) (x : K) :
    (occSampleNNAt g k.dyn dens occ p (some m) st = .ok (some x) → 0 ≤ x ∧ x ≤ B) ∧ (occSampleBilinearAt g k.dyn dens occ p (some m) st = .ok (some x) → 0 ≤ x ∧ x ≤ B) := by
  have hR : MapReachable k exp st := by
    obtain ⟨ops, hops⟩ := hst
    exact occ_reachable fl g k defRay exp ops _ st .init hops
  have hbin : b ∈ st.bundleIndices → ∀ c, c < 2 ^ d → ∀ o, st.binContent b c = some o → o = (st.content c (generateIndex b c)).getD Occ.new := by
    intro hm c hc o ho
    rw [binContent_val hR hm hc] at ho
    exact (Option.some.inj ho).symm
  constructor
  · intro hx
    obtain ⟨h1, h2⟩ := C24_occupancy_sample_is_mean fl k g hr defRay exp st hst dens occ m p b hb x hx
    by_cases hh : Spec.Region g.r k (g.toMap p) ∧ b ∈ st.bundleIndices
    · obtain ⟨o, h3, rfl⟩ := h1 hh
      have hq : ∀ c ∈ Finset.range (2 ^ d), 0 ≤ ((o c).data.elim 0 fun s => dens s (g.toMap p) * occ m (o c)) ∧ ((o c).data.elim 0 fun s => dens s (g.toMap p) * occ m (o c)) ≤ B := by
        intro c hc
        have hc := Finset.mem_range.1 hc
        rw [hbin hh.2 c hc _ (h3 c hc)]
        exact hv c hc
      have hpow : (0 : K) < 2 ^ d := by positivity
      refine ⟨div_nonneg (Finset.sum_nonneg fun c hc => (hq c hc).1) hpow.le, ?_⟩
      rw [div_le_iff₀ hpow]
      refine le_trans (Finset.sum_le_sum fun c hc => (hq c hc).2) ?_
      simp [mul_comm]
    · rw [h2 hh]; exact ⟨le_refl _, hB⟩
  · intro hx
    by_cases hh : Spec.Region g.r k (g.toMap p) ∧ b ∈ st.bundleIndices
    · refine C25_occupancy_bilinear_between fl k g hr defRay exp st hst dens occ m p b hb x 0 B hx hh.1 hh.2 fun c hc o ho => ?_
      rw [hbin hh.2 c hc o ho]
      exact hv c hc
    · rw [(C25_occupancy_bilinear_sample fl k g hr defRay exp st hst dens occ m p b hb x hx).2 hh]; exact ⟨le_refl _, hB⟩

end later

/-! #### maps -/

theorem OccReachable.later {K : Type} [Field K] [LinearOrder K] [IsStrictOrderedRing K] [FloorRing K] {d : Nat} {W E : Type} [AddCommMonoid W] {fl : Flavour K d W E} {k : Kind d} {g : Geo K d}
    {defRay : Pt K d → Pt K d → List (Idx d)} {exp : Occ W E → Bool} {st0 st : St k.backend (Occ W E)} (h0 : OccReachable fl k g defRay exp st0) {ops : List (OccMapOp K d W E)}
    (h : occRun fl g k.dyn defRay exp ops st0 = some st) : OccReachable fl k g defRay exp st := by
  obtain ⟨ops0, h0⟩ := h0
  exact ⟨ops0 ++ ops, by rw [occRun_append, h0]; exact h⟩

theorem logit_lt {p q : ℝ} (hp : 0 < p ∧ p < 1) (hq : 0 < q ∧ q < 1) (h : p < q) : logOdds p < logOdds q := by
  have e1 : 0 < 1 - p := by linarith [hp.2]
  have e2 : 0 < 1 - q := by linarith [hq.2]
  refine Real.log_lt_log (odds_pos hp) ?_
  rw [div_lt_div_iff₀ e1 e2]
  nlinarith

theorem logit_le {p q : ℝ} (hp : 0 < p ∧ p < 1) (hq : 0 < q ∧ q < 1) (h : p ≤ q) : logOdds p ≤ logOdds q := by
  rcases h.lt_or_eq with h | rfl
  · exact (logit_lt hp hq h).le
  · rfl

section maps
variable {d : Nat}

/-- **C108** (threshold). On every reachable occupancy map, the occupancy of a distribution with hits reaches a threshold exactly if the evidence of its hits outweighs that of its misses: each hit counts with the logarithmic odds
of `occ` over `prior`, each miss with those of `prior` over `free`. -/
theorem C108_threshold (k : Kind d) (g : Geo ℝ d) (defRay : Pt ℝ d → Pt ℝ d → List (Idx d)) (exp : Occ Nat (Pt ℝ d) → Bool) (st : St k.backend (Occ Nat (Pt ℝ d)))
    (hst : OccReachable (occFlavour ℝ d) k g defRay exp st) (c : Nat) (hc : c < 2 ^ d) (i : Idx d) (o : Occ Nat (Pt ℝ d)) (ho : st.content c i = some o) (hhit : 0 < o.numOccupied)
    (hw : o.numFree + o.numOccupied ≤ 2 ^ 64) (m : SensorModel) (θ : ℝ) (hθ : 0 < θ ∧ θ < 1) :
    θ ≤ o.occupancy m.ivm ↔ o.numFree * (logOdds m.prior - logOdds m.free) + logOdds θ ≤ o.numOccupied * (logOdds m.occ - logOdds m.prior) + logOdds m.prior := by
  obtain ⟨ops, hops⟩ := hst
  rw [Occ.numOccupied_eq] at *
  rw [C27_value_any_history k g defRay exp ops st hops c hc i o ho m.ivm hw]
  unfold occupancySpec
  rw [if_neg hhit.ne']
  have e : ∀ l, θ ≤ 1 - 1 / (1 + Real.exp l) ↔ logOdds θ ≤ l := by
    intro l
    show θ ≤ logOddsFrom l ↔ _
    constructor
    · intro h
      by_contra hlt
      have := logOddsFrom_lt (not_le.1 hlt)
      rw [logOddsFrom_logit hθ] at this
      linarith
    · intro h
      have := logOddsFrom_le h
      rwa [logOddsFrom_logit hθ] at this
  rw [e]
  unfold SensorModel.ivm
  constructor <;> intro h <;> simp only at h ⊢ <;> linarith

open scoped Classical in
/-- **C108** (vanished obstacles are forgotten, occupancy maps). Take any reachable map and a bundle whose overlapping cells have at most `H` hits each. Once `n` later scans have looked through the bundle, without hits in these
cells, with `n` at least `(H · (logOdds occ - logOdds prior) + logOdds prior - logOdds ε) / (logOdds prior - logOdds free)`, all samples in the bundle are at most `ε` times the largest density. -/
theorem C108_forgotten (k : Kind d) (g : Geo ℝ d) (hr : 0 < g.r) (defRay : Pt ℝ d → Pt ℝ d → List (Idx d)) (exp : Occ Nat (Pt ℝ d) → Bool) (m : SensorModel) (hm : m.Proper) (hf : m.free < m.prior) (ho : m.prior ≤ m.occ)
    (dens : Multiset (Pt ℝ d) → Pt ℝ d → ℝ) (D : ℝ) (hD : ∀ s q, 0 ≤ dens s q ∧ dens s q ≤ D)
    (st0 : St k.backend (Occ Nat (Pt ℝ d))) (h0 : OccReachable (occFlavour ℝ d) k g defRay exp st0) (b : Idx d) (H : Nat)
    (hH : ∀ c, c < 2 ^ d → ∀ i, BundleInCell g.r b c i → ((st0.content c i).getD Occ.new).numOccupied ≤ H)
    (ε : ℝ) (hε : 0 < ε ∧ ε < 1) (later : List (OccMapOp ℝ d Nat (Pt ℝ d))) (hp : ∀ op ∈ later, op.Plain) (st : St k.backend (Occ Nat (Pt ℝ d)))
    (h : occRun (occFlavour ℝ d) g k.dyn defRay exp later st0 = some st) (hclear : ∀ s ∈ scansOf later, ClearOf g k s b)
    (hn : H * (logOdds m.occ - logOdds m.prior) + logOdds m.prior - logOdds ε ≤ ((scansOf later).countP fun s => decide (LooksThrough false g k s b)) * (logOdds m.prior - logOdds m.free))
    (hw : ∀ c, c < 2 ^ d → ∀ i, BundleInCell g.r b c i → ((st.content c i).getD Occ.new).numFree + ((st.content c i).getD Occ.new).numOccupied ≤ 2 ^ 64)
    (p : Pt ℝ d) (hb : InBundle g.r b (g.toMap p)) (x : ℝ) :
    (occSampleNNAt g k.dyn dens (fun m o => o.occupancy m) p (some m.ivm) st = .ok (some x) → 0 ≤ x ∧ x ≤ ε * D) ∧
    (occSampleBilinearAt g k.dyn dens (fun m o => o.occupancy m) p (some m.ivm) st = .ok (some x) → 0 ≤ x ∧ x ≤ ε * D) := by
  have hst := h0.later h
  have hD0 : 0 ≤ D := le_trans (hD 0 p).1 (hD 0 p).2
  have hB : 0 ≤ ε * D := mul_nonneg hε.1.le hD0
  refine sample_bounded _ k g hr defRay exp st hst dens _ m.ivm p b hb (ε * D) hB (fun c hc => ?_) x
  have hi : BundleInCell g.r b c (generateIndex b c) := (bundleInCell_iff hr b c _).2 rfl
  have e1 := later_misses k g hr defRay exp st0 st h0 later hp h c hc (generateIndex b c)
  have e2 := later_samples _ k g hr defRay exp st0 st h0 later hp h c hc (generateIndex b c)
  rw [clear_samples g k _ b hclear c hc _ hi, Multiset.map_zero, add_zero] at e2
  have hw' := hw c hc _ hi
  have hH' := hH c hc _ hi
  have hcnt := count_le_sum (fun s => decide (LooksThrough false g k s b)) (fun s => misses false g k s c (generateIndex b c)) (scansOf later)
    fun s _ hs => misses_of_ray false g hr k s b (of_decide_eq_true hs) c _ hi
  cases hcon : st.content c (generateIndex b c) with
  | none => exact ⟨le_refl _, hB⟩
  | some o =>
    rw [hcon, Option.getD_some] at hw' e1 e2
    rw [Option.getD_some]
    cases hdat : o.data with
    | none => exact ⟨le_refl _, hB⟩
    | some s =>
      show 0 ≤ dens s (g.toMap p) * o.occupancy m.ivm ∧ dens s (g.toMap p) * o.occupancy m.ivm ≤ ε * D
      obtain ⟨ops, hops⟩ := hst
      have hne := (C27_no_empty_distribution (occFlavour ℝ d) k g defRay exp ops st hops c hc _ o hcon)
      have hhit : 0 < o.numOccupied := by
        rw [Occ.numOccupied_eq]
        refine Multiset.card_pos.2 fun h0 => ?_
        rw [hne.2 h0] at hdat
        cases hdat
      have hpos : 0 ≤ o.occupancy m.ivm := by unfold Occ.occupancy; rw [hdat]; exact (logOddsFrom_pos _).le
      have hle : o.occupancy m.ivm ≤ ε := by
        rw [Occ.numOccupied_eq] at hw' hhit hH'
        rw [C27_value_any_history k g defRay exp ops st hops c hc _ o hcon m.ivm hw']
        unfold occupancySpec
        rw [if_neg hhit.ne', ← logOddsFrom_logit hε]
        refine logOddsFrom_le ?_
        rw [← e2] at hH'
        have a1 : (o.samples.card : ℝ) * (logOdds m.occ - logOdds m.prior) ≤ H * (logOdds m.occ - logOdds m.prior) :=
          mul_le_mul_of_nonneg_right (by exact_mod_cast hH') (by linarith [logit_le hm.prior hm.occ ho])
        have a2 : ((scansOf later).countP fun s => decide (LooksThrough false g k s b)) * (logOdds m.prior - logOdds m.free) ≤ (o.numFree : ℝ) * (logOdds m.prior - logOdds m.free) :=
          mul_le_mul_of_nonneg_right (by rw [e1]; exact_mod_cast hcnt.trans (Nat.le_add_left _ _)) (by linarith [logit_lt hm.free hm.prior hf])
        unfold SensorModel.ivm
        simp only
        linarith
      refine ⟨mul_nonneg (hD _ _).1 hpos, ?_⟩
      rw [mul_comm ε]
      exact mul_le_mul (hD _ _).2 hle hpos hD0

open scoped Classical in
/-- **C108** (forgotten, in other words). For every reachable map, every bundle and every `ε` there is a number of scans after which the obstacle is forgotten. -/
theorem C108_forgotten_eventually (k : Kind d) (g : Geo ℝ d) (hr : 0 < g.r) (defRay : Pt ℝ d → Pt ℝ d → List (Idx d)) (exp : Occ Nat (Pt ℝ d) → Bool) (m : SensorModel) (hm : m.Proper) (hf : m.free < m.prior) (ho : m.prior ≤ m.occ)
    (dens : Multiset (Pt ℝ d) → Pt ℝ d → ℝ) (D : ℝ) (hD : ∀ s q, 0 ≤ dens s q ∧ dens s q ≤ D)
    (st0 : St k.backend (Occ Nat (Pt ℝ d))) (h0 : OccReachable (occFlavour ℝ d) k g defRay exp st0) (b : Idx d) (ε : ℝ) (hε : 0 < ε ∧ ε < 1) :
    ∃ n : Nat, ∀ (later : List (OccMapOp ℝ d Nat (Pt ℝ d))) (st : St k.backend (Occ Nat (Pt ℝ d))), (∀ op ∈ later, op.Plain) → occRun (occFlavour ℝ d) g k.dyn defRay exp later st0 = some st →
      (∀ s ∈ scansOf later, ClearOf g k s b) → n ≤ ((scansOf later).countP fun s => decide (LooksThrough false g k s b)) →
      (∀ c, c < 2 ^ d → ∀ i, BundleInCell g.r b c i → ((st.content c i).getD Occ.new).numFree + ((st.content c i).getD Occ.new).numOccupied ≤ 2 ^ 64) →
      ∀ p, InBundle g.r b (g.toMap p) → ∀ x,
        (occSampleNNAt g k.dyn dens (fun m o => o.occupancy m) p (some m.ivm) st = .ok (some x) → 0 ≤ x ∧ x ≤ ε * D) ∧
        (occSampleBilinearAt g k.dyn dens (fun m o => o.occupancy m) p (some m.ivm) st = .ok (some x) → 0 ≤ x ∧ x ≤ ε * D) := by
  let H : Nat := ∑ c ∈ Finset.range (2 ^ d), ((st0.content c (generateIndex b c)).getD Occ.new).numOccupied
  have hpos : 0 < logOdds m.prior - logOdds m.free := by linarith [logit_lt hm.free hm.prior hf]
  obtain ⟨n, hn⟩ := exists_nat_ge ((H * (logOdds m.occ - logOdds m.prior) + logOdds m.prior - logOdds ε) / (logOdds m.prior - logOdds m.free))
  refine ⟨n, fun later st hp h hc hcount hw p hb x => C108_forgotten k g hr defRay exp m hm hf ho dens D hD st0 h0 b H ?_ ε hε later hp st h hc ?_ hw p hb x⟩
  · intro c hc i hi
    rw [← (bundleInCell_iff hr b c i).1 hi]
    exact Finset.single_le_sum (f := fun c => ((st0.content c (generateIndex b c)).getD Occ.new).numOccupied) (fun _ _ => Nat.zero_le _) (Finset.mem_range.2 hc)
  · rw [div_le_iff₀ hpos] at hn
    exact hn.trans (mul_le_mul_of_nonneg_right (by exact_mod_cast hcount) hpos.le)

open scoped Classical in
theorem hit_count (g : Geo ℝ d) (k : Kind d) {W : Type} (c : Nat) (i : Idx d) (l : List (Scan ℝ d W)) :
    (l.countP fun s => decide (∃ p ∈ hits g k s, InCell g.r c i p)) ≤ (((l.map fun s => hits g k s).sum).filter (InCell g.r c i)).card := by
  induction l with
  | nil => simp
  | cons s l ih =>
    rw [List.countP_cons, List.map_cons, List.sum_cons, Multiset.filter_add, Multiset.card_add]
    have : (if decide (∃ p ∈ hits g k s, InCell g.r c i p) = true then 1 else 0) ≤ ((hits g k s).filter (InCell g.r c i)).card := by
      split
      · rename_i h
        obtain ⟨p, h1, h2⟩ := of_decide_eq_true h
        exact Multiset.card_pos_iff_exists_mem.2 ⟨p, Multiset.mem_filter.2 ⟨h1, h2⟩⟩
      · exact Nat.zero_le _
    omega

open scoped Classical in
/-- **C108** (new obstacles are learned, occupancy maps). Take any reachable map and a cell with at most `F` misses. Once `n ≥ 1` later scans have hit the cell, without misses in it, with `n` at least
`(F · (logOdds prior - logOdds free) + logOdds θ - logOdds prior) / (logOdds occ - logOdds prior)`, its occupancy is at least `θ`. -/
theorem C108_learned (k : Kind d) (g : Geo ℝ d) (hr : 0 < g.r) (defRay : Pt ℝ d → Pt ℝ d → List (Idx d)) (exp : Occ Nat (Pt ℝ d) → Bool) (m : SensorModel) (hm : m.Proper) (hf : m.free ≤ m.prior) (ho : m.prior < m.occ)
    (st0 : St k.backend (Occ Nat (Pt ℝ d))) (h0 : OccReachable (occFlavour ℝ d) k g defRay exp st0) (c : Nat) (hc : c < 2 ^ d) (i : Idx d) (F : Nat) (hF : ((st0.content c i).getD Occ.new).numFree ≤ F)
    (θ : ℝ) (hθ : 0 < θ ∧ θ < 1) (later : List (OccMapOp ℝ d Nat (Pt ℝ d))) (hp : ∀ op ∈ later, op.Plain) (st : St k.backend (Occ Nat (Pt ℝ d)))
    (h : occRun (occFlavour ℝ d) g k.dyn defRay exp later st0 = some st) (hmiss : ∀ s ∈ scansOf later, misses false g k s c i = 0)
    (h1 : 0 < (scansOf later).countP fun s => decide (∃ p ∈ hits g k s, InCell g.r c i p))
    (hn : F * (logOdds m.prior - logOdds m.free) + logOdds θ - logOdds m.prior ≤ ((scansOf later).countP fun s => decide (∃ p ∈ hits g k s, InCell g.r c i p)) * (logOdds m.occ - logOdds m.prior))
    (hw : ((st.content c i).getD Occ.new).numFree + ((st.content c i).getD Occ.new).numOccupied ≤ 2 ^ 64) :
    ∃ o, st.content c i = some o ∧ θ ≤ o.occupancy m.ivm := by
  have e1 := later_misses k g hr defRay exp st0 st h0 later hp h c hc i
  have e2 := later_samples _ k g hr defRay exp st0 st h0 later hp h c hc i
  rw [show (occFlavour ℝ d).sample = id from rfl, Multiset.map_id] at e2
  rw [show ((scansOf later).map fun s => misses false g k s c i) = (scansOf later).map fun _ => 0 from List.map_congr_left hmiss, List.map_const', List.sum_replicate, smul_zero, add_zero] at e1
  have hcnt := hit_count g k c i (scansOf later)
  have hcard := congrArg Multiset.card e2
  rw [Multiset.card_add] at hcard
  cases hcon : st.content c i with
  | none =>
    rw [hcon] at hcard
    have : ((none : Option (Occ Nat (Pt ℝ d))).getD Occ.new).samples.card = 0 := rfl
    omega
  | some o =>
    refine ⟨o, rfl, ?_⟩
    rw [hcon, Option.getD_some] at hcard e1 hw
    have hhit : 0 < o.numOccupied := by rw [Occ.numOccupied_eq]; omega
    refine (C108_threshold k g defRay exp st (h0.later h) c hc i o hcon hhit hw m θ hθ).2 ?_
    have a1 : (o.numFree : ℝ) * (logOdds m.prior - logOdds m.free) ≤ F * (logOdds m.prior - logOdds m.free) :=
      mul_le_mul_of_nonneg_right (by rw [e1]; exact_mod_cast hF) (by linarith [logit_le hm.free hm.prior hf])
    have a2 : ((scansOf later).countP fun s => decide (∃ p ∈ hits g k s, InCell g.r c i p)) * (logOdds m.occ - logOdds m.prior) ≤ (o.numOccupied : ℝ) * (logOdds m.occ - logOdds m.prior) :=
      mul_le_mul_of_nonneg_right (by rw [Occ.numOccupied_eq]; exact_mod_cast (by omega)) (by linarith [logit_lt hm.prior hm.occ ho])
    linarith

/-! #### weighted maps -/

theorem occupancyW_eq {P : Type} (m : Ivm) (o : Occ ℝ (P × ℝ)) (h : o.data ≠ none) :
    o.occupancyW m = logOddsFrom (o.numFree * m.logFree + o.weightOccupied * m.logOcc - (o.numFree + o.weightOccupied - 1) * m.logPrior) := by
  unfold Occ.occupancyW Occ.weightOccupied Occ.numFree
  cases hd : o.data with
  | none => exact absurd hd h
  | some s => rfl

/-- **C108** (Bayes' rule with weights). After any history of weighted updates with at least one hit, the odds of the occupancy are the prior odds, multiplied for every observation by the factor by which it changes the odds, to
the power of its weight. -/
theorem C108_weighted_odds {P : Type} (h : List (OccOp ℝ (P × ℝ))) (hs : ∀ op ∈ h, Substantial op) (m : SensorModel) (hm : m.Proper) (hhit : (OccOp.run h).samples ≠ 0) :
    odds ((OccOp.run h).occupancyW m.ivm) = odds m.prior * (odds m.free / odds m.prior) ^ (OccOp.run h).numFree * (odds m.occ / odds m.prior) ^ (OccOp.run h).weightOccupied := by
  obtain ⟨_, h2⟩ := OccOp.run_data hs
  rw [occupancyW_eq _ _ (by rw [h2 hhit]; exact Option.some_ne_none _)]
  have e : ∀ l, odds (logOddsFrom l) = Real.exp l := by
    intro l
    rw [logOddsFrom_eq]
    have := Real.exp_pos l
    unfold odds
    have : 1 - Real.exp l / (1 + Real.exp l) = 1 / (1 + Real.exp l) := by field_simp; ring
    rw [this]
    field_simp
  rw [e]
  have hp := odds_pos hm.prior
  have hf := odds_pos hm.free
  have ho := odds_pos hm.occ
  unfold odds SensorModel.ivm logOdds
  rw [Real.rpow_def_of_pos (div_pos hf hp), Real.rpow_def_of_pos (div_pos ho hp), Real.log_div hf.ne' hp.ne', Real.log_div ho.ne' hp.ne']
  have e2 : m.prior / (1 - m.prior) = Real.exp (Real.log (m.prior / (1 - m.prior))) := (Real.exp_log hp).symm
  generalize Real.log (m.prior / (1 - m.prior)) = lp at *
  rw [e2, ← Real.exp_add, ← Real.exp_add]
  congr 1
  simp only
  ring

theorem weighted_counts (k : Kind d) (g : Geo ℝ d) (hr : 0 < g.r) (defRay : Pt ℝ d → Pt ℝ d → List (Idx d)) (exp : Occ ℝ (Pt ℝ d × ℝ) → Bool) (st : St k.backend (Occ ℝ (Pt ℝ d × ℝ)))
    (hst : OccReachable (weightedFlavour ℝ d) k g defRay exp st) (c : Nat) (hc : c < 2 ^ d) (i : Idx d) :
    0 ≤ ((st.content c i).getD Occ.new).numFree ∧ ((st.content c i).getD Occ.new).weightOccupied = ((st.content c i).getD Occ.new).samples.card := by
  obtain ⟨ops, hops⟩ := hst
  obtain ⟨outs, _, _, h⟩ := C27_weighted_any_history k g hr defRay exp ops st hops
  obtain ⟨h1, h2⟩ := h c hc i
  refine ⟨by rw [h2]; exact Nat.cast_nonneg _, ?_⟩
  have : ((st.content c i).getD Occ.new).weightOccupied = (((st.content c i).getD Occ.new).samples.map Prod.snd).sum := by
    unfold Occ.weightOccupied Occ.samples
    cases ((st.content c i).getD Occ.new).data <;> rfl
  rw [this, h1, Multiset.map_map, Multiset.card_map]
  simp

/-- **C108** (threshold, weighted maps): as `C108_threshold`, without a bound on the number of observations. -/
theorem C108_weighted_threshold (k : Kind d) (g : Geo ℝ d) (defRay : Pt ℝ d → Pt ℝ d → List (Idx d)) (exp : Occ ℝ (Pt ℝ d × ℝ) → Bool) (st : St k.backend (Occ ℝ (Pt ℝ d × ℝ)))
    (hst : OccReachable (weightedFlavour ℝ d) k g defRay exp st) (c : Nat) (hc : c < 2 ^ d) (i : Idx d) (o : Occ ℝ (Pt ℝ d × ℝ)) (ho : st.content c i = some o) (hhit : o.samples ≠ 0)
    (m : SensorModel) (θ : ℝ) (hθ : 0 < θ ∧ θ < 1) :
    θ ≤ o.occupancyW m.ivm ↔ o.numFree * (logOdds m.prior - logOdds m.free) + logOdds θ ≤ o.weightOccupied * (logOdds m.occ - logOdds m.prior) + logOdds m.prior := by
  obtain ⟨ops, hops⟩ := hst
  have hne := C27_no_empty_distribution _ k g defRay exp ops st hops c hc i o ho
  rw [occupancyW_eq _ _ fun h => hhit (hne.1 h)]
  have e : ∀ l, θ ≤ logOddsFrom l ↔ logOdds θ ≤ l := by
    intro l
    constructor
    · intro h
      by_contra hlt
      have := logOddsFrom_lt (not_le.1 hlt)
      rw [logOddsFrom_logit hθ] at this
      linarith
    · intro h
      have := logOddsFrom_le h
      rwa [logOddsFrom_logit hθ] at this
  rw [e]
  unfold SensorModel.ivm
  constructor <;> intro h <;> simp only at h ⊢ <;> linarith

open scoped Classical in
/-- **C108** (vanished obstacles are forgotten, weighted maps): as `C108_forgotten`, where the scans that look through the bundle must not hit it, and without a bound on the number of observations. -/
theorem C108_weighted_forgotten (k : Kind d) (g : Geo ℝ d) (hr : 0 < g.r) (defRay : Pt ℝ d → Pt ℝ d → List (Idx d)) (exp : Occ ℝ (Pt ℝ d × ℝ) → Bool) (m : SensorModel) (hm : m.Proper) (hf : m.free < m.prior) (ho : m.prior ≤ m.occ)
    (dens : Multiset (Pt ℝ d × ℝ) → Pt ℝ d → ℝ) (D : ℝ) (hD : ∀ s q, 0 ≤ dens s q ∧ dens s q ≤ D)
    (st0 : St k.backend (Occ ℝ (Pt ℝ d × ℝ))) (h0 : OccReachable (weightedFlavour ℝ d) k g defRay exp st0) (b : Idx d) (H : ℝ)
    (hH : ∀ c, c < 2 ^ d → ∀ i, BundleInCell g.r b c i → ((st0.content c i).getD Occ.new).weightOccupied ≤ H)
    (ε : ℝ) (hε : 0 < ε ∧ ε < 1) (later : List (OccMapOp ℝ d ℝ (Pt ℝ d × ℝ))) (hp : ∀ op ∈ later, op.Plain) (st : St k.backend (Occ ℝ (Pt ℝ d × ℝ)))
    (h : occRun (weightedFlavour ℝ d) g k.dyn defRay exp later st0 = some st) (hclear : ∀ s ∈ scansOf later, ClearOf g k s b)
    (hn : H * (logOdds m.occ - logOdds m.prior) + logOdds m.prior - logOdds ε ≤ ((scansOf later).countP fun s => decide (LooksThrough true g k s b)) * (logOdds m.prior - logOdds m.free))
    (p : Pt ℝ d) (hb : InBundle g.r b (g.toMap p)) (x : ℝ) :
    (occSampleNNAt g k.dyn dens (fun m o => o.occupancyW m) p (some m.ivm) st = .ok (some x) → 0 ≤ x ∧ x ≤ ε * D) ∧
    (occSampleBilinearAt g k.dyn dens (fun m o => o.occupancyW m) p (some m.ivm) st = .ok (some x) → 0 ≤ x ∧ x ≤ ε * D) := by
  have hst := h0.later h
  have hD0 : 0 ≤ D := le_trans (hD 0 p).1 (hD 0 p).2
  have hB : 0 ≤ ε * D := mul_nonneg hε.1.le hD0
  refine sample_bounded _ k g hr defRay exp st hst dens _ m.ivm p b hb (ε * D) hB (fun c hc => ?_) x
  have hi : BundleInCell g.r b c (generateIndex b c) := (bundleInCell_iff hr b c _).2 rfl
  have e1 := later_misses_weighted k g hr defRay exp st0 st h0 later hp h c hc (generateIndex b c)
  have e2 := later_samples _ k g hr defRay exp st0 st h0 later hp h c hc (generateIndex b c)
  rw [clear_samples g k _ b hclear c hc _ hi, Multiset.map_zero, add_zero] at e2
  have hH' := hH c hc _ hi
  obtain ⟨hF0, hW0⟩ := weighted_counts k g hr defRay exp st0 h0 c hc (generateIndex b c)
  obtain ⟨_, hW⟩ := weighted_counts k g hr defRay exp st hst c hc (generateIndex b c)
  have hcnt := count_le_sum (fun s => decide (LooksThrough true g k s b)) (fun s => misses true g k s c (generateIndex b c)) (scansOf later)
    fun s _ hs => misses_of_ray true g hr k s b (of_decide_eq_true hs) c _ hi
  rw [hW0, ← e2, ← hW] at hH'
  cases hcon : st.content c (generateIndex b c) with
  | none => exact ⟨le_refl _, hB⟩
  | some o =>
    rw [hcon, Option.getD_some] at e1 hH'
    rw [Option.getD_some]
    cases hdat : o.data with
    | none => exact ⟨le_refl _, hB⟩
    | some s =>
      show 0 ≤ dens s (g.toMap p) * o.occupancyW m.ivm ∧ dens s (g.toMap p) * o.occupancyW m.ivm ≤ ε * D
      rw [occupancyW_eq m.ivm o (by rw [hdat]; exact Option.some_ne_none _)]
      have hle : logOddsFrom (o.numFree * m.ivm.logFree + o.weightOccupied * m.ivm.logOcc - (o.numFree + o.weightOccupied - 1) * m.ivm.logPrior) ≤ ε := by
        refine le_trans (logOddsFrom_le ?_) (logOddsFrom_logit hε).le
        have a1 : o.weightOccupied * (logOdds m.occ - logOdds m.prior) ≤ H * (logOdds m.occ - logOdds m.prior) := mul_le_mul_of_nonneg_right hH' (by linarith [logit_le hm.prior hm.occ ho])
        have a2 : ((scansOf later).countP fun s => decide (LooksThrough true g k s b)) * (logOdds m.prior - logOdds m.free) ≤ o.numFree * (logOdds m.prior - logOdds m.free) := by
          refine mul_le_mul_of_nonneg_right ?_ (by linarith [logit_lt hm.free hm.prior hf])
          rw [e1]
          have : (((scansOf later).countP fun s => decide (LooksThrough true g k s b) : Nat) : ℝ) ≤ (((scansOf later).map fun s => misses true g k s c (generateIndex b c)).sum : Nat) := by exact_mod_cast hcnt
          linarith
        unfold SensorModel.ivm
        simp only
        linarith
      refine ⟨mul_nonneg (hD _ _).1 (logOddsFrom_pos _).le, ?_⟩
      rw [mul_comm ε]
      exact mul_le_mul (hD _ _).2 hle (logOddsFrom_pos _).le hD0

open scoped Classical in
/-- **C108** (new obstacles are learned, weighted maps): as `C108_learned`. -/
theorem C108_weighted_learned (k : Kind d) (g : Geo ℝ d) (hr : 0 < g.r) (defRay : Pt ℝ d → Pt ℝ d → List (Idx d)) (exp : Occ ℝ (Pt ℝ d × ℝ) → Bool) (m : SensorModel) (hm : m.Proper) (hf : m.free ≤ m.prior) (ho : m.prior < m.occ)
    (st0 : St k.backend (Occ ℝ (Pt ℝ d × ℝ))) (h0 : OccReachable (weightedFlavour ℝ d) k g defRay exp st0) (c : Nat) (hc : c < 2 ^ d) (i : Idx d) (F : ℝ) (hF : ((st0.content c i).getD Occ.new).numFree ≤ F)
    (θ : ℝ) (hθ : 0 < θ ∧ θ < 1) (later : List (OccMapOp ℝ d ℝ (Pt ℝ d × ℝ))) (hp : ∀ op ∈ later, op.Plain) (st : St k.backend (Occ ℝ (Pt ℝ d × ℝ)))
    (h : occRun (weightedFlavour ℝ d) g k.dyn defRay exp later st0 = some st) (hmiss : ∀ s ∈ scansOf later, misses true g k s c i = 0)
    (h1 : 0 < (scansOf later).countP fun s => decide (∃ p ∈ hits g k s, InCell g.r c i p))
    (hn : F * (logOdds m.prior - logOdds m.free) + logOdds θ - logOdds m.prior ≤ ((scansOf later).countP fun s => decide (∃ p ∈ hits g k s, InCell g.r c i p)) * (logOdds m.occ - logOdds m.prior)) :
    ∃ o, st.content c i = some o ∧ θ ≤ o.occupancyW m.ivm := by
  have e1 := later_misses_weighted k g hr defRay exp st0 st h0 later hp h c hc i
  have e2 := later_samples _ k g hr defRay exp st0 st h0 later hp h c hc i
  rw [show ((scansOf later).map fun s => misses true g k s c i) = (scansOf later).map fun _ => 0 from List.map_congr_left hmiss, List.map_const', List.sum_replicate, smul_zero, Nat.cast_zero, add_zero] at e1
  have hcnt := hit_count g k c i (scansOf later)
  have hcard := congrArg Multiset.card e2
  rw [Multiset.card_add, Multiset.card_map] at hcard
  obtain ⟨_, hW⟩ := weighted_counts k g hr defRay exp st (h0.later h) c hc i
  cases hcon : st.content c i with
  | none =>
    rw [hcon] at hcard
    have : ((none : Option (Occ ℝ (Pt ℝ d × ℝ))).getD Occ.new).samples.card = 0 := rfl
    omega
  | some o =>
    refine ⟨o, rfl, ?_⟩
    rw [hcon, Option.getD_some] at hcard e1 hW
    have hhit : o.samples ≠ 0 := Multiset.card_pos.1 (by omega)
    refine (C108_weighted_threshold k g defRay exp st (h0.later h) c hc i o hcon hhit m θ hθ).2 ?_
    have a1 : o.numFree * (logOdds m.prior - logOdds m.free) ≤ F * (logOdds m.prior - logOdds m.free) := mul_le_mul_of_nonneg_right (by rw [e1]; exact hF) (by linarith [logit_le hm.free hm.prior hf])
    have a2 : ((scansOf later).countP fun s => decide (∃ p ∈ hits g k s, InCell g.r c i p)) * (logOdds m.occ - logOdds m.prior) ≤ o.weightOccupied * (logOdds m.occ - logOdds m.prior) :=
      mul_le_mul_of_nonneg_right (by rw [hW]; exact_mod_cast (by omega)) (by linarith [logit_lt hm.prior hm.occ ho])
    linarith

/-! #### Non-vacuity: an obstacle appears, vanishes and comes back. -/

def evKind : Kind 1 := .static (fun _ => 8) (fun _ => 0)
def evGeo : Geo ℝ 1 := { r := 1, toMap := id, normal := fun _ => true }
/-- a scan with one hit -/
noncomputable def evScan (W : Type) (x : ℝ) (ray : List (Idx 1)) : Scan ℝ 1 W := { pose := id, cloud := [fun _ => x], ray := fun _ _ => ray, order := id, order_perm := fun l => List.Perm.refl l }
/-- the obstacle, in bundle 2 -/
noncomputable def evObstacle (W : Type) : Scan ℝ 1 W := evScan W (6 / 5) []
/-- a hit in bundle 10, with a ray through bundle 2 -/
noncomputable def evLook (W : Type) : Scan ℝ 1 W := evScan W (26 / 5) [fun _ => 2]
noncomputable def evModel : SensorModel := ⟨1 / 2, 1 / 3, 2 / 3⟩

theorem evModel_proper : evModel.Proper := by constructor <;> norm_num [evModel]

theorem ev_hits (W : Type) (x : ℝ) (ray : List (Idx 1)) (hx : 0 ≤ x ∧ x < 15 / 2) : hits evGeo evKind (evScan W x ray) = {fun _ => x} := by
  unfold hits acceptedPoints
  have e : (((((evScan W x ray).cloud.filter fun p => evGeo.normal p).map (evScan W x ray).pose).filter fun p => evGeo.normal p).map evGeo.toMap : List (Pt ℝ 1)) = [fun _ => x] := by simp [evScan, evGeo]
  rw [e, Multiset.coe_singleton, Multiset.filter_singleton, if_pos]
  intro a
  constructor
  · show ((0 : Int) : ℝ) * (1 / 2) ≤ x
    norm_num; exact hx.1
  · show x < (((0 : Int) : ℝ) + 2 * ((8 : Nat) : ℝ) - 1) * (1 / 2)
    norm_num; linarith [hx.2]

theorem ev_misses (skip : Bool) (W : Type) (x : ℝ) (ray : List (Idx 1)) (hx : 0 ≤ x ∧ x < 15 / 2) (c : Nat) (i : Idx 1) : misses skip evGeo evKind (evScan W x ray) c i ≤ ray.length := by
  classical
  have hcard : (hits evGeo evKind (evScan W x ray)).card = 1 := by rw [ev_hits W x ray hx]; rfl
  unfold misses
  refine (Finset.sum_le_card_nsmul _ _ ray.length fun b _ => ?_).trans ?_
  · refine (Nat.mul_le_mul (List.length_filter_le _ _) ((Multiset.card_le_card (Multiset.filter_le _ _)).trans hcard.le)).trans ?_
    rw [mul_one]; exact le_refl _
  · rw [smul_eq_mul]
    have : (hitBundles evGeo evKind (evScan W x ray)).card ≤ 1 := (Multiset.toFinset_card_le _).trans (by rw [Multiset.card_map]; exact hcard.le)
    calc _ ≤ 1 * ray.length := Nat.mul_le_mul_right _ this
      _ = _ := one_mul _

theorem ev_bundle : BundleInCell evGeo.r (fun _ => 2) 0 (fun _ : Fin 1 => 1) := (bundleInCell_iff (by norm_num [evGeo]) _ _ _).2 (by funext a; fin_cases a; decide)

theorem ev_obstacle_in {c : Nat} {i : Idx 1} (h : BundleInCell evGeo.r (fun _ => 2) c i) : InCell evGeo.r c i fun _ => (6 / 5 : ℝ) :=
  h _ fun a => ⟨by show ((2 : Int) : ℝ) * (1 / 2) ≤ 6 / 5; norm_num, by show (6 / 5 : ℝ) < (((2 : Int) : ℝ) + 1) * (1 / 2); norm_num⟩

theorem ev_clear (W : Type) : ClearOf evGeo evKind (evLook W) (fun _ => 2) := by
  intro p hp c _ i hi h
  rw [evLook, ev_hits W _ _ (by norm_num), Multiset.mem_singleton] at hp
  subst hp
  have h1 := (ev_obstacle_in hi 0).1
  have h2 := (h 0).2
  rw [show evGeo.r = 1 from rfl] at h1 h2
  linarith

theorem ev_looks (skip : Bool) (W : Type) : LooksThrough skip evGeo evKind (evLook W) (fun _ => 2) := by
  have hb : hitBundles evGeo evKind (evLook W) = {fun _ => 10} := by
    unfold hitBundles
    rw [evLook, ev_hits W _ _ (by norm_num), Multiset.map_singleton, Multiset.toFinset_singleton]
    congr 1
    funext a
    show ⌊(26 / 5 : ℝ) / (1 / 2)⌋ = 10
    rw [Int.floor_eq_iff]
    norm_num
  refine ⟨?_, fun _ h => ?_, fun _ => 10, by rw [hb]; exact Finset.mem_singleton_self _, List.mem_singleton_self _⟩
  · intro a
    exact ⟨by show (0 : Int) ≤ 2; norm_num, by show (2 : Int) < 0 + 2 * ((8 : Nat) : Int) - 1; norm_num⟩
  · rw [hb, Finset.mem_singleton] at h
    exact absurd (congrFun h 0) (by norm_num)

theorem ev_logits : logOdds evModel.prior = 0 ∧ logOdds evModel.free = -Real.log 2 ∧ logOdds evModel.occ = Real.log 2 := by
  unfold logOdds evModel
  refine ⟨by norm_num, ?_, ?_⟩
  · rw [← Real.log_inv]; norm_num
  · norm_num

theorem ev_quarter : logOdds (1 / 4) = -Real.log 3 ∧ Real.log 3 ≤ 2 * Real.log 2 := by
  unfold logOdds
  refine ⟨by rw [← Real.log_inv]; norm_num, ?_⟩
  have : 2 * Real.log 2 = Real.log 4 := by rw [show (4 : ℝ) = 2 ^ 2 by norm_num, Real.log_pow]; norm_num
  rw [this]
  exact Real.log_le_log (by norm_num) (by norm_num)

/-- the scans of the example: the obstacle, three scans that look through it, three times the obstacle -/
noncomputable def evFirst (W E : Type) : List (OccMapOp ℝ 1 W E) := [.insert (evObstacle W)]
noncomputable def evLooks (W E : Type) : List (OccMapOp ℝ 1 W E) := [.insert (evLook W), .insert (evLook W), .insert (evLook W)]
noncomputable def evAgain (W E : Type) : List (OccMapOp ℝ 1 W E) := [.insert (evObstacle W), .insert (evObstacle W), .insert (evObstacle W)]

theorem ev_runs {W E : Type} [AddCommMonoid W] (fl : Flavour ℝ 1 W E) : ∃ st0 st1 st2, occRun fl evGeo evKind.dyn (fun _ _ => []) (fun _ => false) (evFirst W E) (evKind.init _) = some st0 ∧
    occRun fl evGeo evKind.dyn (fun _ _ => []) (fun _ => false) (evLooks W E) st0 = some st1 ∧ occRun fl evGeo evKind.dyn (fun _ _ => []) (fun _ => false) (evAgain W E) st1 = some st2 ∧
    occRun fl evGeo evKind.dyn (fun _ _ => []) (fun _ => false) (evFirst W E ++ evLooks W E) (evKind.init _) = some st1 ∧
    occRun fl evGeo evKind.dyn (fun _ _ => []) (fun _ => false) (evFirst W E ++ evLooks W E ++ evAgain W E) (evKind.init _) = some st2 := by
  obtain ⟨st2, h⟩ := occRun_total evKind.lawful fl evGeo evKind.dyn (fun _ _ => []) (fun _ => false) (evFirst W E ++ evLooks W E ++ evAgain W E) _ evKind.init_rinv (fun j h => Kind.static_good _ _ _ h)
  have h' := h
  rw [occRun_append, Option.bind_eq_some_iff] at h
  obtain ⟨st1, h1, h2⟩ := h
  have h1' := h1
  rw [occRun_append, Option.bind_eq_some_iff] at h1
  obtain ⟨st0, h3, h4⟩ := h1
  exact ⟨st0, st1, st2, h3, h4, h2, h1', h'⟩

theorem ev_plain {W E : Type} (op : OccMapOp ℝ 1 W E) (h : op ∈ evFirst W E ++ evLooks W E ++ evAgain W E) : op.Plain := by
  simp only [evFirst, evLooks, evAgain, List.mem_append, List.mem_cons, List.not_mem_nil, or_false] at h
  rcases h with (rfl | rfl | rfl | rfl) | rfl | rfl | rfl <;> trivial

theorem ev_sum (W : Type) (f : Scan ℝ 1 W → Nat) (A B : Nat) (hA : f (evObstacle W) ≤ A) (hB : f (evLook W) ≤ B) (E : Type) :
    ((scansOf (evFirst W E)).map f).sum ≤ A ∧ ((scansOf (evFirst W E ++ evLooks W E)).map f).sum ≤ A + 3 * B ∧ ((scansOf (evFirst W E ++ evLooks W E ++ evAgain W E)).map f).sum ≤ 4 * A + 3 * B := by
  simp only [evFirst, evLooks, evAgain, scansOf, List.cons_append, List.nil_append, List.map_cons, List.map_nil, List.sum_cons, List.sum_nil]
  omega

open scoped Classical in
theorem ev_hit_cards (W E : Type) (c : Nat) (i : Idx 1) :
    ((((scansOf (evFirst W E)).map fun s => hits evGeo evKind s).sum).filter (InCell evGeo.r c i)).card ≤ 1 ∧
    ((((scansOf (evFirst W E ++ evLooks W E)).map fun s => hits evGeo evKind s).sum).filter (InCell evGeo.r c i)).card ≤ 4 ∧
    ((((scansOf (evFirst W E ++ evLooks W E ++ evAgain W E)).map fun s => hits evGeo evKind s).sum).filter (InCell evGeo.r c i)).card ≤ 7 := by
  have h1 : hits evGeo evKind (evObstacle W) = {fun _ => 6 / 5} := ev_hits W _ _ (by norm_num)
  have h2 : hits evGeo evKind (evLook W) = {fun _ => 26 / 5} := ev_hits W _ _ (by norm_num)
  refine ⟨?_, ?_, ?_⟩ <;> refine (Multiset.card_le_card (Multiset.filter_le _ _)).trans ?_ <;>
    simp [evFirst, evLooks, evAgain, scansOf, h1, h2]

open scoped Classical in
/-- Non-vacuity of `C108_bayes_map`, `C108_threshold` and `C108_forgotten`: after the first scan, every cell that contains bundle 2 has seen the obstacle; three scans look through the bundle and are clear of it, which is enough for
`ε = 1/4`. -/
example : ∃ st0 st, occRun (occFlavour ℝ 1) evGeo evKind.dyn (fun _ _ => []) (fun _ => false) (evFirst _ _) (evKind.init _) = some st0 ∧
    (∀ c, c < 2 ^ 1 → ∀ i, BundleInCell evGeo.r (fun _ => 2) c i → ((st0.content c i).getD Occ.new).numOccupied = 1) ∧
    (∀ op ∈ evLooks Nat (Pt ℝ 1), op.Plain) ∧ occRun (occFlavour ℝ 1) evGeo evKind.dyn (fun _ _ => []) (fun _ => false) (evLooks _ _) st0 = some st ∧
    (∀ s ∈ scansOf (evLooks Nat (Pt ℝ 1)), ClearOf evGeo evKind s (fun _ => 2)) ∧
    ((1 : Nat) : ℝ) * (logOdds evModel.occ - logOdds evModel.prior) + logOdds evModel.prior - logOdds (1 / 4) ≤
      ((scansOf (evLooks Nat (Pt ℝ 1))).countP fun s => decide (LooksThrough false evGeo evKind s (fun _ => 2))) * (logOdds evModel.prior - logOdds evModel.free) ∧
    (∀ c, c < 2 ^ 1 → ∀ i, ((st.content c i).getD Occ.new).numFree + ((st.content c i).getD Occ.new).numOccupied ≤ 2 ^ 64) ∧
    InBundle evGeo.r (fun _ => 2) (evGeo.toMap fun _ => 6 / 5) := by
  obtain ⟨st0, st, _, h0, h1, _, h01, _⟩ := ev_runs (occFlavour ℝ 1)
  refine ⟨st0, st, h0, ?_, fun op h => ev_plain op (by simp [h]), h1, ?_, ?_, ?_, ?_⟩
  · intro c hc i hi
    rw [(C27_occupancy_counts evKind evGeo (by norm_num [evGeo]) _ _ _ (fun op h => ev_plain op (by simp [h])) st0 h0 c hc i).2.2]
    have : hits evGeo evKind (evObstacle Nat) = {fun _ => 6 / 5} := ev_hits Nat _ _ (by norm_num)
    simp only [evFirst, scansOf, List.map_cons, List.map_nil, List.sum_cons, List.sum_nil, add_zero, this]
    rw [Multiset.filter_singleton, if_pos (ev_obstacle_in hi)]
    rfl
  · intro s hs
    simp only [evLooks, scansOf, List.mem_cons, List.not_mem_nil, or_false, or_self] at hs
    rw [hs]
    exact ev_clear Nat
  · have : ((scansOf (evLooks Nat (Pt ℝ 1))).countP fun s => decide (LooksThrough false evGeo evKind s (fun _ => 2))) = 3 := by
      simp [evLooks, scansOf, List.countP_cons, ev_looks false Nat]
    rw [this, ev_logits.1, ev_logits.2.1, ev_logits.2.2, ev_quarter.1]
    have := ev_quarter.2
    norm_num
    linarith
  · intro c hc i
    obtain ⟨a1, _, a3⟩ := C27_occupancy_counts evKind evGeo (by norm_num [evGeo]) _ _ _ (fun op h => ev_plain op (by rw [List.mem_append]; exact Or.inl h)) st h01 c hc i
    rw [a1, a3]
    have b1 := (ev_sum Nat (fun s => misses false evGeo evKind s c i) 0 1 (ev_misses false Nat _ _ (by norm_num) c i) (ev_misses false Nat _ _ (by norm_num) c i) (Pt ℝ 1)).2.1
    have b2 := (ev_hit_cards Nat (Pt ℝ 1) c i).2.1
    have : (7 : Nat) ≤ 2 ^ 64 := by norm_num
    omega
  · intro a
    exact ⟨by show ((2 : Int) : ℝ) * (1 / 2) ≤ 6 / 5; norm_num, by show (6 / 5 : ℝ) < (((2 : Int) : ℝ) + 1) * (1 / 2); norm_num⟩

open scoped Classical in
/-- Non-vacuity of `C108_learned`: then the obstacle comes back, which is learned (`θ = 1/2`) although the cell has up to three misses. -/
example : ∃ st1 st2, occRun (occFlavour ℝ 1) evGeo evKind.dyn (fun _ _ => []) (fun _ => false) (evFirst _ _ ++ evLooks _ _) (evKind.init _) = some st1 ∧
    ((st1.content 0 (fun _ => 1)).getD Occ.new).numFree ≤ 3 ∧ (∀ op ∈ evAgain Nat (Pt ℝ 1), op.Plain) ∧
    occRun (occFlavour ℝ 1) evGeo evKind.dyn (fun _ _ => []) (fun _ => false) (evAgain _ _) st1 = some st2 ∧ (∀ s ∈ scansOf (evAgain Nat (Pt ℝ 1)), misses false evGeo evKind s 0 (fun _ => 1) = 0) ∧
    ((scansOf (evAgain Nat (Pt ℝ 1))).countP fun s => decide (∃ p ∈ hits evGeo evKind s, InCell evGeo.r 0 (fun _ => 1) p)) = 3 ∧
    ((3 : Nat) : ℝ) * (logOdds evModel.prior - logOdds evModel.free) + logOdds (1 / 2) - logOdds evModel.prior ≤ ((3 : Nat) : ℝ) * (logOdds evModel.occ - logOdds evModel.prior) ∧
    ((st2.content 0 (fun _ => 1)).getD Occ.new).numFree + ((st2.content 0 (fun _ => 1)).getD Occ.new).numOccupied ≤ 2 ^ 64 := by
  obtain ⟨st0, st1, st2, h0, h1, h2, h01, h012⟩ := ev_runs (occFlavour ℝ 1)
  have hr : (0 : ℝ) < evGeo.r := by norm_num [evGeo]
  have b := fun c i => ev_sum Nat (fun s => misses false evGeo evKind s c i) 0 1 (ev_misses false Nat _ _ (by norm_num) c i) (ev_misses false Nat _ _ (by norm_num) c i) (Pt ℝ 1)
  refine ⟨st1, st2, h01, ?_, fun op h => ev_plain op (by rw [List.mem_append]; exact Or.inr h), h2, ?_, ?_, ?_, ?_⟩
  · rw [(C27_occupancy_counts evKind evGeo hr _ _ _ (fun op h => ev_plain op (by rw [List.mem_append]; exact Or.inl h)) st1 h01 0 (by norm_num) _).1]
    have := (b 0 fun _ => 1).2.1
    omega
  · intro s hs
    simp only [evAgain, scansOf, List.mem_cons, List.not_mem_nil, or_false, or_self] at hs
    rw [hs]
    exact Nat.le_zero.1 (ev_misses false Nat _ _ (by norm_num) 0 _)
  · have : ∃ p ∈ hits evGeo evKind (evObstacle Nat), InCell evGeo.r 0 (fun _ => 1) p := ⟨fun _ => 6 / 5, by rw [evObstacle, ev_hits Nat _ _ (by norm_num)]; exact Multiset.mem_singleton_self _, ev_obstacle_in ev_bundle⟩
    simp [evAgain, scansOf, List.countP_cons, this]
  · rw [ev_logits.1, ev_logits.2.1, ev_logits.2.2]
    have : logOdds (1 / 2) = 0 := by unfold logOdds; norm_num
    rw [this]
    norm_num
  · obtain ⟨a1, _, a3⟩ := C27_occupancy_counts evKind evGeo hr _ _ _ ev_plain st2 h012 0 (by norm_num) fun _ => 1
    rw [a1, a3]
    have b1 := (b 0 fun _ => 1).2.2
    have b2 := (ev_hit_cards Nat (Pt ℝ 1) 0 fun _ => 1).2.2
    have : (10 : Nat) ≤ 2 ^ 64 := by norm_num
    omega

open scoped Classical in
/-- Non-vacuity of `C108_weighted_forgotten` and `C108_weighted_learned`: the same scans in a weighted map. -/
example : ∃ st0 st1 st2, occRun (weightedFlavour ℝ 1) evGeo evKind.dyn (fun _ _ => []) (fun _ => false) (evFirst _ _) (evKind.init _) = some st0 ∧
    (∀ c, c < 2 ^ 1 → ∀ i, BundleInCell evGeo.r (fun _ => 2) c i → ((st0.content c i).getD Occ.new).weightOccupied = 1) ∧
    occRun (weightedFlavour ℝ 1) evGeo evKind.dyn (fun _ _ => []) (fun _ => false) (evLooks _ _) st0 = some st1 ∧ (∀ s ∈ scansOf (evLooks ℝ (Pt ℝ 1 × ℝ)), ClearOf evGeo evKind s (fun _ => 2)) ∧
    (1 : ℝ) * (logOdds evModel.occ - logOdds evModel.prior) + logOdds evModel.prior - logOdds (1 / 4) ≤
      ((scansOf (evLooks ℝ (Pt ℝ 1 × ℝ))).countP fun s => decide (LooksThrough true evGeo evKind s (fun _ => 2))) * (logOdds evModel.prior - logOdds evModel.free) ∧
    ((st1.content 0 (fun _ => 1)).getD Occ.new).numFree ≤ 3 ∧ occRun (weightedFlavour ℝ 1) evGeo evKind.dyn (fun _ _ => []) (fun _ => false) (evAgain _ _) st1 = some st2 ∧
    (∀ s ∈ scansOf (evAgain ℝ (Pt ℝ 1 × ℝ)), misses true evGeo evKind s 0 (fun _ => 1) = 0) ∧
    ((scansOf (evAgain ℝ (Pt ℝ 1 × ℝ))).countP fun s => decide (∃ p ∈ hits evGeo evKind s, InCell evGeo.r 0 (fun _ => 1) p)) = 3 := by
  obtain ⟨st0, st1, st2, h0, h1, h2, h01, h012⟩ := ev_runs (weightedFlavour ℝ 1)
  have hr : (0 : ℝ) < evGeo.r := by norm_num [evGeo]
  refine ⟨st0, st1, st2, h0, ?_, h1, ?_, ?_, ?_, h2, ?_, ?_⟩
  · intro c hc i hi
    rw [(C27_weighted_counts evKind evGeo hr _ _ _ (fun op h => ev_plain op (by simp [h])) st0 h0 c hc i).2.2]
    have : hits evGeo evKind (evObstacle ℝ) = {fun _ => 6 / 5} := ev_hits ℝ _ _ (by norm_num)
    simp only [evFirst, scansOf, List.map_cons, List.map_nil, List.sum_cons, List.sum_nil, add_zero, this]
    rw [Multiset.filter_singleton, if_pos (ev_obstacle_in hi), Multiset.card_singleton]
    norm_num
  · intro s hs
    simp only [evLooks, scansOf, List.mem_cons, List.not_mem_nil, or_false, or_self] at hs
    rw [hs]
    exact ev_clear ℝ
  · have : ((scansOf (evLooks ℝ (Pt ℝ 1 × ℝ))).countP fun s => decide (LooksThrough true evGeo evKind s (fun _ => 2))) = 3 := by
      simp [evLooks, scansOf, List.countP_cons, ev_looks true ℝ]
    rw [this, ev_logits.1, ev_logits.2.1, ev_logits.2.2, ev_quarter.1]
    have := ev_quarter.2
    norm_num
    linarith
  · rw [(C27_weighted_counts evKind evGeo hr _ _ _ (fun op h => ev_plain op (by rw [List.mem_append]; exact Or.inl h)) st1 h01 0 (by norm_num) _).1]
    have := (ev_sum ℝ (fun s => misses true evGeo evKind s 0 fun _ => 1) 0 1 (ev_misses true ℝ _ _ (by norm_num) 0 _) (ev_misses true ℝ _ _ (by norm_num) 0 _) (Pt ℝ 1 × ℝ)).2.1
    exact_mod_cast (by omega)
  · intro s hs
    simp only [evAgain, scansOf, List.mem_cons, List.not_mem_nil, or_false, or_self] at hs
    rw [hs]
    exact Nat.le_zero.1 (ev_misses true ℝ _ _ (by norm_num) 0 _)
  · have : ∃ p ∈ hits evGeo evKind (evObstacle ℝ), InCell evGeo.r 0 (fun _ => 1) p := ⟨fun _ => 6 / 5, by rw [evObstacle, ev_hits ℝ _ _ (by norm_num)]; exact Multiset.mem_singleton_self _, ev_obstacle_in ev_bundle⟩
    simp [evAgain, scansOf, List.countP_cons, this]

/-- Non-vacuity of `C108_bayes` and `C108_weighted_odds`: two misses and a hit. -/
example : (∀ op ∈ [OccOp.free 2, .point (0 : Nat)], Substantial (W := Nat) op) ∧ 0 < (OccOp.run [OccOp.free 2, .point (0 : Nat)] : Occ Nat Nat).numOccupied ∧
    (OccOp.run [OccOp.free 2, .point (0 : Nat)] : Occ Nat Nat).numFree + (OccOp.run [OccOp.free 2, .point (0 : Nat)] : Occ Nat Nat).numOccupied ≤ 2 ^ 64 ∧
    (OccOp.run [OccOp.free (1 / 2 : ℝ), .point ((0 : Nat), (3 : ℝ))]).samples ≠ 0 := by
  refine ⟨?_, by decide, by decide, ?_⟩
  · intro op h
    simp only [List.mem_cons, List.not_mem_nil, or_false] at h
    rcases h with rfl | rfl <;> trivial
  · rw [(C21_counts _).2.1]
    simp [hitsOf]

end maps

end Ndt
