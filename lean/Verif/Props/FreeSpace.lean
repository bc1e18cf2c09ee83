import Verif.Spec.FreeSpace
import Verif.Props.VisibleScan
import Verif.Props.ScanOrder
import Verif.Props.Windows
import Mathlib.Algebra.Order.Archimedean.Basic

/-!
Property theorems C116 (free and unmapped space does not occlude) and the visibility-aware part of C112.
-/

namespace Ndt
open St Spec

section
variable {K : Type} [Field K] [LinearOrder K] [IsStrictOrderedRing K] {d : Nat}

theorem foldr_min_zero (f : Fin d → Bool) : ∀ l : List (Fin d), (l.map fun a => if f a then (0 : K) else 1).foldr min 1 = if ∃ a ∈ l, f a = true then 0 else 1
  | [] => by simp
  | a :: l => by
    rw [List.map_cons, List.foldr_cons, foldr_min_zero f l]
    by_cases h : f a = true
    · have he : ∃ x ∈ a :: l, f x = true := ⟨a, List.mem_cons_self, h⟩
      rw [if_pos h, if_pos he]
      refine min_eq_left ?_
      split_ifs <;> norm_num
    · rw [if_neg h]
      by_cases h' : ∃ a ∈ l, f a = true
      · rw [if_pos h', if_pos (h'.imp fun a h => ⟨List.mem_cons_of_mem _ h.1, h.2⟩)]
        exact min_eq_right zero_le_one
      · rw [if_neg h', if_neg]
        · exact min_self _
        · rintro ⟨x, hx, hf⟩
          rcases List.mem_cons.1 hx with rfl | hx
          · exact h hf
          · exact h' ⟨x, hx, hf⟩

open scoped Classical in
/-- behind the border of the map the occlusion is 1, whatever the map contains -/
theorem occlusion_walled {D : Type} [Inhabited D] (k : Kind d) (occ : D → K) (content : Nat → Idx d → Option D) (alloc : Set (Idx d)) (s b : Idx d) (h : Walled k s b) :
    occlusion k occ content alloc s b = 1 := by
  unfold occlusion
  have e : (fun a : Fin d => if ValidBundle k (towards s b a) then bundleOcc occ content alloc (towards s b a) else (1 : K)) = fun a => if (fun _ : Fin d => false) a = true then 0 else 1 := by
    funext a; rw [if_neg (h a)]; rfl
  rw [e, foldr_min_zero (fun _ : Fin d => false)]
  simp

open scoped Classical in
theorem occlusion_free {D : Type} [Inhabited D] (k : Kind d) (occ : D → K) (content : Nat → Idx d → Option D) (alloc : Set (Idx d)) (s b : Idx d)
    (h : ∀ c < 2 ^ d, ∀ i, occ ((content c i).getD default) = 0) : occlusion k occ content alloc s b = if Walled k s b then 1 else 0 := by
  unfold occlusion
  have e : (fun a : Fin d => if ValidBundle k (towards s b a) then bundleOcc occ content alloc (towards s b a) else (1 : K)) = fun a => if (fun a : Fin d => decide (ValidBundle k (towards s b a))) a = true then 0 else 1 := by
    funext a
    by_cases hv : ValidBundle k (towards s b a)
    · rw [if_pos hv, if_pos (by simpa using hv)]
      unfold bundleOcc
      rw [Finset.sum_eq_zero fun c hc => h c (Finset.mem_range.1 hc) _]
      simp
    · rw [if_neg hv, if_neg (by simpa using hv)]
  rw [e, foldr_min_zero (fun a : Fin d => decide (ValidBundle k (towards s b a)))]
  unfold Walled
  by_cases hw : ∀ a, ¬ ValidBundle k (towards s b a)
  · rw [if_pos hw, if_neg]
    rintro ⟨a, _, ha⟩
    exact hw a (by simpa using ha)
  · rw [if_neg hw, if_pos]
    push Not at hw
    obtain ⟨a, ha⟩ := hw
    exact ⟨a, List.mem_finRange a, by simpa using ha⟩

theorem visibility_walled {D : Type} [Inhabited D] (k : Kind d) (occ : D → K) (vm : VisModel K) (content : Nat → Idx d → Option D) (alloc : Set (Idx d)) (s b : Idx d) (h : Walled k s b) :
    visibility k occ vm content alloc s b = vm.probFree := by
  unfold visibility; rw [occlusion_walled k occ content alloc s b h]; ring

theorem visibility_free {D : Type} [Inhabited D] (k : Kind d) (occ : D → K) (vm : VisModel K) (content : Nat → Idx d → Option D) (alloc : Set (Idx d)) (s b : Idx d)
    (h : ∀ c < 2 ^ d, ∀ i, occ ((content c i).getD default) = 0) : visibility k occ vm content alloc s b = clearness k vm s b := by
  unfold visibility clearness
  rw [occlusion_free k occ content alloc s b h]
  split_ifs <;> ring

/-- if no factor is above 1, the walk along a ray fails exactly if the whole product is below the prior -/
theorem walk_prod (prior : K) (vis : Idx d → K) (hv : ∀ x, 0 ≤ vis x ∧ vis x ≤ 1) : ∀ (l : List (Idx d)) (v : K), 0 ≤ v → prior ≤ v →
    walk prior vis l v = if v * (l.map vis).prod < prior then none else some (v * (l.map vis).prod)
  | [], v, _, h => by
    unfold walk
    rw [List.map_nil, List.prod_nil, mul_one, if_neg (not_lt.2 h)]
  | x :: l, v, h0, h => by
    unfold walk
    rw [List.map_cons, List.prod_cons, ← mul_assoc]
    have hp : 0 ≤ (l.map vis).prod ∧ (l.map vis).prod ≤ 1 := by
      clear h h0 v
      induction l with
      | nil => simp
      | cons y l ih =>
        rw [List.map_cons, List.prod_cons]
        exact ⟨mul_nonneg (hv y).1 ih.1, mul_le_one₀ (hv y).2 ih.1 ih.2⟩
    have h0' : 0 ≤ v * vis x := mul_nonneg h0 (hv x).1
    by_cases hx : v * vis x < prior
    · rw [if_pos hx, if_pos (lt_of_le_of_lt (mul_le_of_le_one_right h0' hp.2) hx)]
    · rw [if_neg hx, walk_prod prior vis hv l _ h0' (not_lt.1 hx)]

omit [IsStrictOrderedRing K] in
theorem clearness_unit (k : Kind d) (vm : VisModel K) (hvm : Probabilities vm) (s b : Idx d) : 0 ≤ clearness k vm s b ∧ clearness k vm s b ≤ 1 := by
  unfold clearness
  split_ifs
  · exact hvm.1
  · exact hvm.2.1

end

section
variable {K : Type} [Field K] [LinearOrder K] [IsStrictOrderedRing K] [FloorRing K] {d : Nat} {W E : Type} [AddCommMonoid W]

theorem occ_free (fl : Flavour K d W E) (k : Kind d) (g : Geo K d) (defRay : Pt K d → Pt K d → List (Idx d)) (exp : Occ W E → Bool) (st : St k.backend (Occ W E)) (hst : OccReachable fl k g defRay exp st)
    (hnone : ∀ c < 2 ^ d, ∀ i, ((st.content c i).getD Occ.new).samples = 0) (occ : Occ W E → K) (hocc : ∀ o, o.data = none → occ o = 0) :
    ∀ c < 2 ^ d, ∀ i, occ ((st.content c i).getD default) = 0 := by
  intro c hc i
  obtain ⟨ops, h⟩ := hst
  cases ho : st.content c i with
  | none => exact hocc _ rfl
  | some o =>
    have h0 := hnone c hc i
    rw [ho] at h0
    exact hocc _ ((C27_no_empty_distribution fl k g defRay exp ops st h c hc i o ho).2 h0)

open scoped Classical in
theorem free_space_exact (fl : Flavour K d W E) (hmean : ∀ s : Multiset (Pt K d), fl.mean (s.map fl.sample) = Spec.meanOf s) (k : Kind d) (g : Geo K d) (hr : 0 < g.r)
    (defRay : Pt K d → Pt K d → List (Idx d)) (exp : Occ W E → Bool) (st t : St k.backend (Occ W E)) (hst : OccReachable fl k g defRay exp st)
    (hnone : ∀ c < 2 ^ d, ∀ i, ((st.content c i).getD Occ.new).samples = 0) (s : Scan K d W)
    (occ : Occ W E → K) (hocc : ∀ o, o.data = none → occ o = 0) (vm : VisModel K) (hvm : Probabilities vm) (h : occInsertVisible fl g k.dyn defRay s (some occ) (some vm) st = some t)
    (sb b : Idx d) (hsb : InBundle g.r sb (g.toMap (s.pose 0))) (hone : hitBundles g k s = {b}) (V : K) (hV : V = ((rayOf g k s b).map (clearness k vm sb)).prod) :
    (V < vm.probPrior → t = st) ∧ (vm.probPrior ≤ V → ∀ c, c < 2 ^ d → ∀ i,
      ((t.content c i).getD Occ.new).samples = ((st.content c i).getD Occ.new).samples +
        (if vm.probPrior ≤ V * clearness k vm sb b then ((Spec.hits g k s).filter (Spec.InCell g.r c i)).map fl.sample else 0) ∧
      ((t.content c i).getD Occ.new).free = ((st.content c i).getD Occ.new).free +
        ∑ b ∈ Spec.hitBundles g k s, ((Spec.rayOf g k s b).filter fun x => decide (Spec.ValidBundle k x ∧ Spec.BundleInCell g.r x c i ∧
          (true = true → x ∉ Spec.hitBundles g k s))).length • fl.amount ((Spec.hitsIn g k s b).map fl.sample)) := by
  have hsb' : (fun a => ⌊g.toMap (s.pose 0) a / (g.r / 2)⌋) = sb := by
    rw [floor_bundle]; exact (C01_bundle_contains_point hr _ sb).2 hsb
  have hvis : clearness k vm sb = visibility k occ vm st.content st.abs.allocated (fun a => ⌊g.toMap (s.pose 0) a / (g.r / 2)⌋) := by
    rw [hsb']; funext x
    exact (visibility_free k occ vm st.content _ sb x (occ_free fl k g defRay exp st hst hnone occ hocc)).symm
  obtain ⟨h1, h2⟩ := visible_single fl hmean k g hr defRay exp st t hst s occ vm h b hone _ hvis
  have hw := walk_prod vm.probPrior (clearness k vm sb) (clearness_unit k vm hvm sb) (rayOf g k s b) 1 zero_le_one hvm.2.2
  rw [one_mul, ← hV] at hw
  refine ⟨fun hlt => h1 ?_, fun hle c hc i => ?_⟩
  · rw [hw, if_pos hlt]
  · exact h2 V (by rw [hw, if_neg (not_lt.2 hle)]) c hc i

theorem outside_nothing (fl : Flavour K d W E) (hmean : ∀ s : Multiset (Pt K d), fl.mean (s.map fl.sample) = Spec.meanOf s) (k : Kind d) (g : Geo K d) (hr : 0 < g.r)
    (defRay : Pt K d → Pt K d → List (Idx d)) (exp : Occ W E → Bool) (st t : St k.backend (Occ W E)) (hst : OccReachable fl k g defRay exp st) (s : Scan K d W)
    (occ : Occ W E → K) (vm : VisModel K) (hprior : vm.probFree < vm.probPrior) (h : occInsertVisible fl g k.dyn defRay s (some occ) (some vm) st = some t)
    (sb : Idx d) (hsb : InBundle g.r sb (g.toMap (s.pose 0))) (hwall : Walled k sb sb) (hray : ∀ b ∈ hitBundles g k s, (rayOf g k s b).head? = some sb) :
    (∀ c, c < 2 ^ d → ∀ i, ((t.content c i).getD Occ.new).samples = ((st.content c i).getD Occ.new).samples ∧ ((t.content c i).getD Occ.new).free = ((st.content c i).getD Occ.new).free) ∧
    t.abs.allocated = st.abs.allocated := by
  classical
  have hsb' : (fun a => ⌊g.toMap (s.pose 0) a / (g.r / 2)⌋) = sb := by
    rw [floor_bundle]; exact (C01_bundle_contains_point hr _ sb).2 hsb
  obtain ⟨l, ⟨hl, hm⟩, _⟩ := C29_hit_bundles_order k g hr s
  cases l with
  | nil =>
    have he : hitBundles g k s = ∅ := Finset.eq_empty_of_forall_notMem fun b hb => List.not_mem_nil ((hm b).2 hb)
    obtain ⟨h1, h2⟩ := visible_exact fl hmean k g hr defRay exp st t hst s occ vm h [] hl hm ∅ true rfl
    refine ⟨fun c hc i => ?_, ?_⟩
    · obtain ⟨h3, h4⟩ := h1 c hc i
      rw [h3, h4, he]
      unfold hitsOn
      simp
    · rw [h2, he]; simp
  | cons b l =>
    have hp : pass (verdict fl.sample g k s occ vm st.content st.abs.allocated) (b :: l) ∅ = (∅, false) := by
      have hv : verdict fl.sample g k s occ vm st.content st.abs.allocated ∅ b = none := by
        have hh := hray b ((hm b).1 List.mem_cons_self)
        unfold verdict
        rw [hsb']
        cases hr' : rayOf g k s b with
        | nil => rw [hr'] at hh; cases hh
        | cons x r =>
          rw [hr'] at hh
          obtain rfl : x = sb := Option.some.inj hh
          show Option.map _ (walk _ _ (x :: r) 1) = none
          unfold walk
          rw [visibility_walled k occ vm _ _ x x hwall, one_mul, if_pos hprior]
          rfl
      unfold pass
      rw [hv]
    obtain ⟨h1, h2⟩ := visible_exact fl hmean k g hr defRay exp st t hst s occ vm h (b :: l) hl hm ∅ false hp
    refine ⟨fun c hc i => ?_, ?_⟩
    · obtain ⟨h3, h4⟩ := h1 c hc i
      rw [h3, h4]
      unfold hitsOn
      simp
    · rw [h2]; simp

theorem clearness_dynamic (gs : Nat → Nat) (gb : Nat) (hd : 0 < d) (vm : VisModel K) (s b : Idx d) : clearness (.dynamic gs gb) vm s b = vm.probOcc := by
  unfold clearness
  exact if_neg fun h => h ⟨0, hd⟩ trivial

end

section
variable {K : Type} [Field K] [LinearOrder K] [IsStrictOrderedRing K] [FloorRing K] {d : Nat}

/-- **C116** (partial, occupancy maps): what exactly happens on a map without hits, for a scan whose points lie in one bundle `b`. The visibility left at the end of the ray is the product `V` of one factor for each cell of the ray: the
probability `probOcc` that an unoccluded cell is visible, or `probFree` for cells whose neighbours towards the sensor are all outside of the map. If `V` is below the prior, the call does nothing. Otherwise the misses count, and the hits count
exactly if `V` times the factor of `b` is at least the prior. Missing w.r.t. C116: long rays and sensors at the border of the map, for which it is false. -/
theorem C116_occupancy_exact_partial (k : Kind d) (g : Geo K d) (hr : 0 < g.r) (defRay : Pt K d → Pt K d → List (Idx d)) (exp : Occ Nat (Pt K d) → Bool)
    (st t : St k.backend (Occ Nat (Pt K d))) (hst : OccReachable (occFlavour K d) k g defRay exp st) (hnone : ∀ c < 2 ^ d, ∀ i, ((st.content c i).getD Occ.new).numOccupied = 0)
    (s : Scan K d Nat) (occ : Occ Nat (Pt K d) → K) (hocc : ∀ o, o.data = none → occ o = 0) (vm : VisModel K) (hvm : Probabilities vm)
    (h : occInsertVisible (occFlavour K d) g k.dyn defRay s (some occ) (some vm) st = some t)
    (sb b : Idx d) (hsb : InBundle g.r sb (g.toMap (s.pose 0))) (hone : hitBundles g k s = {b}) (V : K) (hV : V = ((rayOf g k s b).map (clearness k vm sb)).prod) :
    (V < vm.probPrior → t = st) ∧ (vm.probPrior ≤ V → ∀ c, c < 2 ^ d → ∀ i,
      ((vm.probPrior ≤ V * clearness k vm sb b → ((t.content c i).getD Occ.new).samples = hitsOn g k s {b} c i) ∧
        (V * clearness k vm sb b < vm.probPrior → ((t.content c i).getD Occ.new).samples = 0)) ∧
      ((t.content c i).getD Occ.new).numFree = ((st.content c i).getD Occ.new).numFree + misses true g k s c i) := by
  classical
  have hnone' : ∀ c < 2 ^ d, ∀ i, ((st.content c i).getD Occ.new).samples = 0 := fun c hc i => by
    have := hnone c hc i
    rw [Occ.numOccupied_eq] at this
    exact Multiset.card_eq_zero.1 this
  obtain ⟨h1, h2⟩ := free_space_exact (occFlavour K d) occFlavour_mean k g hr defRay exp st t hst hnone' s occ hocc vm hvm h sb b hsb hone V hV
  refine ⟨h1, fun hle c hc i => ?_⟩
  obtain ⟨h3, h4⟩ := h2 hle c hc i
  rw [hnone' c hc i, zero_add, show (occFlavour K d).sample = id from rfl, Multiset.map_id] at h3
  refine ⟨⟨fun hb => ?_, fun hb => ?_⟩, ?_⟩
  · rw [h3, if_pos hb]
    unfold hitsOn
    refine Multiset.filter_congr fun p hp => ?_
    refine ⟨fun hi => ⟨hi, b, Finset.mem_singleton_self b, ?_⟩, fun hi => hi.1⟩
    have hm : (fun a => ⌊p a / (g.r / 2)⌋) ∈ hitBundles g k s := Multiset.mem_toFinset.2 (Multiset.mem_map_of_mem _ hp)
    rw [hone, Finset.mem_singleton, floor_bundle] at hm
    exact (C01_bundle_contains_point hr p b).1 hm
  · rw [h3, if_neg (not_le.2 hb)]
  · unfold Occ.numFree
    rw [h4]
    refine congrArg₂ (· + ·) rfl ?_
    unfold Spec.misses
    refine Finset.sum_congr rfl fun b _ => ?_
    rw [smul_eq_mul, show (occFlavour K d).sample = id from rfl, Multiset.map_id]
    rfl

/-- **C116** (partial, weighted maps): as `C116_occupancy_exact_partial`; every point has weight 1. -/
theorem C116_weighted_exact_partial (k : Kind d) (g : Geo K d) (hr : 0 < g.r) (defRay : Pt K d → Pt K d → List (Idx d)) (exp : Occ K (Pt K d × K) → Bool)
    (st t : St k.backend (Occ K (Pt K d × K))) (hst : OccReachable (weightedFlavour K d) k g defRay exp st) (hnone : ∀ c < 2 ^ d, ∀ i, ((st.content c i).getD Occ.new).samples = 0)
    (s : Scan K d K) (occ : Occ K (Pt K d × K) → K) (hocc : ∀ o, o.data = none → occ o = 0) (vm : VisModel K) (hvm : Probabilities vm)
    (h : occInsertVisible (weightedFlavour K d) g k.dyn defRay s (some occ) (some vm) st = some t)
    (sb b : Idx d) (hsb : InBundle g.r sb (g.toMap (s.pose 0))) (hone : hitBundles g k s = {b}) (V : K) (hV : V = ((rayOf g k s b).map (clearness k vm sb)).prod) :
    (V < vm.probPrior → t = st) ∧ (vm.probPrior ≤ V → ∀ c, c < 2 ^ d → ∀ i,
      ((vm.probPrior ≤ V * clearness k vm sb b → ((t.content c i).getD Occ.new).samples = (hitsOn g k s {b} c i).map fun p => (p, 1)) ∧
        (V * clearness k vm sb b < vm.probPrior → ((t.content c i).getD Occ.new).samples = 0)) ∧
      ((t.content c i).getD Occ.new).numFree = ((st.content c i).getD Occ.new).numFree + (misses true g k s c i : K)) := by
  classical
  obtain ⟨h1, h2⟩ := free_space_exact (weightedFlavour K d) weightedFlavour_mean k g hr defRay exp st t hst hnone s occ hocc vm hvm h sb b hsb hone V hV
  refine ⟨h1, fun hle c hc i => ?_⟩
  obtain ⟨h3, h4⟩ := h2 hle c hc i
  rw [hnone c hc i, zero_add] at h3
  refine ⟨⟨fun hb => ?_, fun hb => ?_⟩, ?_⟩
  · rw [h3, if_pos hb]
    refine congrArg (Multiset.map _) ?_
    unfold hitsOn
    refine Multiset.filter_congr fun p hp => ?_
    refine ⟨fun hi => ⟨hi, b, Finset.mem_singleton_self b, ?_⟩, fun hi => hi.1⟩
    have hm : (fun a => ⌊p a / (g.r / 2)⌋) ∈ hitBundles g k s := Multiset.mem_toFinset.2 (Multiset.mem_map_of_mem _ hp)
    rw [hone, Finset.mem_singleton, floor_bundle] at hm
    exact (C01_bundle_contains_point hr p b).1 hm
  · rw [h3, if_neg (not_le.2 hb)]
  · unfold Occ.numFree
    rw [h4]
    refine congrArg₂ (· + ·) rfl ?_
    unfold Spec.misses
    rw [Nat.cast_sum]
    refine Finset.sum_congr rfl fun b _ => ?_
    rw [weightedFlavour_amount, nsmul_eq_mul, Nat.cast_mul]

/-- **C116** (partial, dynamic maps of both classes): in a dynamic map without hits a ray of `n` cells to one bundle is followed to its end, with all misses and hits, if the prior is at most `probOcc ^ (n + 1)`; in particular for every length if the
visibility model is certain about unoccluded cells. -/
theorem C116_dynamic_partial (hd : 0 < d) (gs : Nat → Nat) (gb : Nat) (g : Geo K d) (hr : 0 < g.r) (defRay : Pt K d → Pt K d → List (Idx d)) (vm : VisModel K) (hvm : Probabilities vm) :
    (∀ (exp : Occ Nat (Pt K d) → Bool) (st t : St (Kind.dynamic gs gb : Kind d).backend (Occ Nat (Pt K d))), OccReachable (occFlavour K d) (.dynamic gs gb) g defRay exp st →
      (∀ c < 2 ^ d, ∀ i, ((st.content c i).getD Occ.new).numOccupied = 0) → ∀ (s : Scan K d Nat) (occ : Occ Nat (Pt K d) → K), (∀ o, o.data = none → occ o = 0) →
      occInsertVisible (occFlavour K d) g true defRay s (some occ) (some vm) st = some t → ∀ b, hitBundles g (.dynamic gs gb) s = {b} → vm.probPrior ≤ vm.probOcc ^ ((rayOf g (.dynamic gs gb) s b).length + 1) →
      ∀ c, c < 2 ^ d → ∀ i, ((t.content c i).getD Occ.new).samples = hitsOn g (.dynamic gs gb) s {b} c i ∧
        ((t.content c i).getD Occ.new).numFree = ((st.content c i).getD Occ.new).numFree + misses true g (.dynamic gs gb) s c i) ∧
    (∀ (exp : Occ K (Pt K d × K) → Bool) (st t : St (Kind.dynamic gs gb : Kind d).backend (Occ K (Pt K d × K))), OccReachable (weightedFlavour K d) (.dynamic gs gb) g defRay exp st →
      (∀ c < 2 ^ d, ∀ i, ((st.content c i).getD Occ.new).samples = 0) → ∀ (s : Scan K d K) (occ : Occ K (Pt K d × K) → K), (∀ o, o.data = none → occ o = 0) →
      occInsertVisible (weightedFlavour K d) g true defRay s (some occ) (some vm) st = some t → ∀ b, hitBundles g (.dynamic gs gb) s = {b} → vm.probPrior ≤ vm.probOcc ^ ((rayOf g (.dynamic gs gb) s b).length + 1) →
      ∀ c, c < 2 ^ d → ∀ i, ((t.content c i).getD Occ.new).samples = (hitsOn g (.dynamic gs gb) s {b} c i).map (fun p => (p, 1)) ∧
        ((t.content c i).getD Occ.new).numFree = ((st.content c i).getD Occ.new).numFree + (misses true g (.dynamic gs gb) s c i : K)) := by
  have hprod : ∀ (sb : Idx d) (l : List (Idx d)), (l.map (clearness (.dynamic gs gb) vm sb)).prod = vm.probOcc ^ l.length := by
    intro sb l
    rw [show clearness (.dynamic gs gb) vm sb = fun _ => vm.probOcc from funext fun x => clearness_dynamic gs gb hd vm sb x, List.map_const', List.prod_replicate]
  have hle : ∀ n : Nat, vm.probOcc ^ (n + 1) ≤ vm.probOcc ^ n := fun n => pow_le_pow_of_le_one hvm.2.1.1 hvm.2.1.2 n.le_succ
  refine ⟨fun exp st t hst hnone s occ hocc h b hone hn c hc i => ?_, fun exp st t hst hnone s occ hocc h b hone hn c hc i => ?_⟩
  · obtain ⟨_, h2⟩ := C116_occupancy_exact_partial (.dynamic gs gb) g hr defRay exp st t hst hnone s occ hocc vm hvm h (fun a => ⌊g.toMap (s.pose 0) a / (g.r / 2)⌋) b
      (by rw [floor_bundle]; exact (C01_bundle_contains_point hr _ _).1 rfl) hone _ rfl
    rw [hprod, clearness_dynamic gs gb hd] at h2
    have h3 := h2 (hn.trans (hle _)) c hc i
    exact ⟨h3.1.1 (by rw [← pow_succ]; exact hn), h3.2⟩
  · obtain ⟨_, h2⟩ := C116_weighted_exact_partial (.dynamic gs gb) g hr defRay exp st t hst hnone s occ hocc vm hvm h (fun a => ⌊g.toMap (s.pose 0) a / (g.r / 2)⌋) b
      (by rw [floor_bundle]; exact (C01_bundle_contains_point hr _ _).1 rfl) hone _ rfl
    rw [hprod, clearness_dynamic gs gb hd] at h2
    have h3 := h2 (hn.trans (hle _)) c hc i
    exact ⟨h3.1.1 (by rw [← pow_succ]; exact hn), h3.2⟩

/-- **C116 refuted** (range, both classes). For every visibility model that is not certain about unoccluded cells there is a number `N` such that in no map without hits a ray of `N` or more cells is followed: the call does nothing, although nothing is in
the way. -/
theorem C116_range_refuted (vm : VisModel K) (hvm : Probabilities vm) (hfree : vm.probFree ≤ vm.probOcc) (hocc1 : vm.probOcc < 1) (hprior : 0 < vm.probPrior) :
    ∃ N : Nat, ∀ (d : Nat) (k : Kind d) (g : Geo K d) (_ : 0 < g.r) (defRay : Pt K d → Pt K d → List (Idx d)),
    (∀ (exp : Occ Nat (Pt K d) → Bool) (st t : St k.backend (Occ Nat (Pt K d))), OccReachable (occFlavour K d) k g defRay exp st →
      (∀ c < 2 ^ d, ∀ i, ((st.content c i).getD Occ.new).numOccupied = 0) → ∀ (s : Scan K d Nat) (occ : Occ Nat (Pt K d) → K), (∀ o, o.data = none → occ o = 0) →
      occInsertVisible (occFlavour K d) g k.dyn defRay s (some occ) (some vm) st = some t → ∀ b, hitBundles g k s = {b} → N ≤ (rayOf g k s b).length → t = st) ∧
    (∀ (exp : Occ K (Pt K d × K) → Bool) (st t : St k.backend (Occ K (Pt K d × K))), OccReachable (weightedFlavour K d) k g defRay exp st →
      (∀ c < 2 ^ d, ∀ i, ((st.content c i).getD Occ.new).samples = 0) → ∀ (s : Scan K d K) (occ : Occ K (Pt K d × K) → K), (∀ o, o.data = none → occ o = 0) →
      occInsertVisible (weightedFlavour K d) g k.dyn defRay s (some occ) (some vm) st = some t → ∀ b, hitBundles g k s = {b} → N ≤ (rayOf g k s b).length → t = st) := by
  have : Archimedean K := FloorRing.archimedean K
  obtain ⟨N, hN⟩ := exists_pow_lt_of_lt_one hprior hocc1
  have hprod : ∀ {d : Nat} (k : Kind d) (sb : Idx d) (l : List (Idx d)), 0 ≤ (l.map (clearness k vm sb)).prod ∧ (l.map (clearness k vm sb)).prod ≤ vm.probOcc ^ l.length := by
    intro d k sb l
    induction l with
    | nil => simp
    | cons x l ih =>
      rw [List.map_cons, List.prod_cons, List.length_cons, pow_succ']
      have hx := clearness_unit k vm hvm sb x
      have hx' : clearness k vm sb x ≤ vm.probOcc := by unfold clearness; split_ifs; exacts [hfree, le_rfl]
      exact ⟨mul_nonneg hx.1 ih.1, mul_le_mul hx' ih.2 ih.1 hvm.2.1.1⟩
  have hlt : ∀ {d : Nat} (k : Kind d) (sb : Idx d) (l : List (Idx d)), N ≤ l.length → (l.map (clearness k vm sb)).prod < vm.probPrior := fun k sb l hl =>
    lt_of_le_of_lt ((hprod k sb l).2.trans (pow_le_pow_of_le_one hvm.2.1.1 hvm.2.1.2 hl)) hN
  refine ⟨N, fun d k g hr defRay => ⟨fun exp st t hst hnone s occ hocc h b hone hn => ?_, fun exp st t hst hnone s occ hocc h b hone hn => ?_⟩⟩
  · exact (C116_occupancy_exact_partial k g hr defRay exp st t hst hnone s occ hocc vm hvm h (fun a => ⌊g.toMap (s.pose 0) a / (g.r / 2)⌋) b
      (by rw [floor_bundle]; exact (C01_bundle_contains_point hr _ _).1 rfl) hone _ rfl).1 (hlt k _ _ hn)
  · exact (C116_weighted_exact_partial k g hr defRay exp st t hst hnone s occ hocc vm hvm h (fun a => ⌊g.toMap (s.pose 0) a / (g.r / 2)⌋) b
      (by rw [floor_bundle]; exact (C01_bundle_contains_point hr _ _).1 rfl) hone _ rfl).1 (hlt k _ _ hn)

/-- **C116 refuted** (sensors at or beyond the border of a static map, both classes). If the bundles after the one of the sensor are outside of the map on all axes, every visibility-aware insertion does nothing, whatever the map and the scan: the cells
outside of the map count as occupied. This concerns sensors outside of the map (`sb` any bundle beyond it) and also those in its last corner. -/
theorem C116_border_refuted (size : Fin d → Nat) (lo : Idx d) (g : Geo K d) (hr : 0 < g.r) (defRay : Pt K d → Pt K d → List (Idx d)) (vm : VisModel K) (hprior : vm.probFree < vm.probPrior)
    (sb : Idx d) (hout : ∀ a, (∃ a', a' ≠ a ∧ (sb a' < lo a' ∨ lo a' + 2 * (size a' : Int) - 1 ≤ sb a')) ∨ sb a + 1 < lo a ∨ lo a + 2 * (size a : Int) - 1 ≤ sb a + 1) :
    (∀ (exp : Occ Nat (Pt K d) → Bool) (st t : St (Kind.static size lo).backend (Occ Nat (Pt K d))), OccReachable (occFlavour K d) (.static size lo) g defRay exp st →
      ∀ (s : Scan K d Nat) (occ : Occ Nat (Pt K d) → K), InBundle g.r sb (g.toMap (s.pose 0)) → (∀ b ∈ hitBundles g (.static size lo) s, (rayOf g (.static size lo) s b).head? = some sb) →
      occInsertVisible (occFlavour K d) g false defRay s (some occ) (some vm) st = some t →
      (∀ c, c < 2 ^ d → ∀ i, ((t.content c i).getD Occ.new).samples = ((st.content c i).getD Occ.new).samples ∧ ((t.content c i).getD Occ.new).numFree = ((st.content c i).getD Occ.new).numFree) ∧
      ∀ b, b ∈ t.bundleIndices ↔ b ∈ st.bundleIndices) ∧
    (∀ (exp : Occ K (Pt K d × K) → Bool) (st t : St (Kind.static size lo).backend (Occ K (Pt K d × K))), OccReachable (weightedFlavour K d) (.static size lo) g defRay exp st →
      ∀ (s : Scan K d K) (occ : Occ K (Pt K d × K) → K), InBundle g.r sb (g.toMap (s.pose 0)) → (∀ b ∈ hitBundles g (.static size lo) s, (rayOf g (.static size lo) s b).head? = some sb) →
      occInsertVisible (weightedFlavour K d) g false defRay s (some occ) (some vm) st = some t →
      (∀ c, c < 2 ^ d → ∀ i, ((t.content c i).getD Occ.new).samples = ((st.content c i).getD Occ.new).samples ∧ ((t.content c i).getD Occ.new).numFree = ((st.content c i).getD Occ.new).numFree) ∧
      ∀ b, b ∈ t.bundleIndices ↔ b ∈ st.bundleIndices) := by
  have hw : Walled (.static size lo) sb sb := by
    intro a hv
    have hv' : ∀ j, lo j ≤ towards sb sb a j ∧ towards sb sb a j < lo j + 2 * (size j : Int) - 1 := hv
    rcases hout a with ⟨a', ha, h⟩ | h
    · have := hv' a'
      rw [show towards sb sb a a' = sb a' from if_neg ha] at this
      omega
    · have := hv' a
      rw [show towards sb sb a a = sb a + 1 by unfold towards; rw [if_pos rfl, if_neg (lt_irrefl _)]] at this
      omega
  refine ⟨fun exp st t hst s occ hsb hray h => ?_, fun exp st t hst s occ hsb hray h => ?_⟩
  · obtain ⟨h1, h2⟩ := outside_nothing (occFlavour K d) occFlavour_mean (.static size lo) g hr defRay exp st t hst s occ vm hprior h sb hsb hw hray
    have ht : OccReachable (occFlavour K d) (.static size lo) g defRay exp t := by
      obtain ⟨ops, ho⟩ := hst
      refine ⟨ops ++ [.insertVisible s (some occ) (some vm)], ?_⟩
      rw [occRun_append, ho]
      show (occInsertVisible (occFlavour K d) g false defRay s (some occ) (some vm) st).bind _ = some t
      rw [h]; rfl
    exact ⟨h1, fun b => by rw [mem_bundleIndices _ _ ht.rinv.inv, mem_bundleIndices _ _ hst.rinv.inv, ← mem_allocated_iff, ← mem_allocated_iff, h2]⟩
  · obtain ⟨h1, h2⟩ := outside_nothing (weightedFlavour K d) weightedFlavour_mean (.static size lo) g hr defRay exp st t hst s occ vm hprior h sb hsb hw hray
    have ht : OccReachable (weightedFlavour K d) (.static size lo) g defRay exp t := by
      obtain ⟨ops, ho⟩ := hst
      refine ⟨ops ++ [.insertVisible s (some occ) (some vm)], ?_⟩
      rw [occRun_append, ho]
      show (occInsertVisible (weightedFlavour K d) g false defRay s (some occ) (some vm) st).bind _ = some t
      rw [h]; rfl
    exact ⟨h1, fun b => by rw [mem_bundleIndices _ _ ht.rinv.inv, mem_bundleIndices _ _ hst.rinv.inv, ← mem_allocated_iff, ← mem_allocated_iff, h2]⟩

end
/-! ### Concrete cases -/

/-- a one-dimensional map with the bundles -5 to 5 -/
def lineKind : Kind 1 := .static (fun _ => 6) (fun _ => -5)
/-- the same with the bundles -5 to 9 -/
def longLineKind : Kind 1 := .static (fun _ => 8) (fun _ => -5)
def lineGeo : Geo ℚ 1 := { r := 2, toMap := id, normal := fun _ => true }
/-- one point at 4.5, seen from 0.5 over the free bundles 0 to 3 -/
def farScan (W : Type) : Scan ℚ 1 W := { pose := fun p a => p a + 1 / 2, cloud := [fun _ => 4], ray := fun _ _ => [fun _ => 0, fun _ => 1, fun _ => 2, fun _ => 3], order := id, order_perm := fun l => List.Perm.refl l }
/-- the same point, seen from 5.5, in the last bundle of the map -/
def endScan (W : Type) : Scan ℚ 1 W := { pose := fun p a => p a + 11 / 2, cloud := [fun _ => -1], ray := fun _ _ => [fun _ => 5], order := id, order_perm := fun l => List.Perm.refl l }
def lineOps {W E : Type} (s : Scan ℚ 1 W) : Bool → List (OccMapOp ℚ 1 W E)
  | false => [.insert s]
  | true => [.insertVisible s (some anyHit) (some visVm)]
def lineRun {W E : Type} [AddCommMonoid W] (fl : Flavour ℚ 1 W E) (k : Kind 1) (s : Scan ℚ 1 W) (v : Bool) : Option (St k.backend (Occ W E)) :=
  occRun fl lineGeo k.dyn (fun _ _ => []) (fun _ => true) (lineOps s v) (k.init _)
/-- hits in the cell of the point -/
def lineHits {W E : Type} [AddCommMonoid W] (fl : Flavour ℚ 1 W E) (k : Kind 1) (s : Scan ℚ 1 W) (v : Bool) : Option Nat :=
  (lineRun fl k s v).map fun t => ((t.content 0 fun _ => 2).getD Occ.new).samples.card

/-- **C116 refuted**, concretely (both classes): a map without any content, one point. `insert` records the point, `insertVisible` does not: neither over four free bundles, nor from the neighbouring bundle if that is the last one of the map. In a longer
map the latter is recorded. -/
theorem C116_refuted :
    (lineHits (occFlavour ℚ 1) lineKind (farScan Nat) false = some 1 ∧ lineHits (occFlavour ℚ 1) lineKind (farScan Nat) true = some 0) ∧
    (lineHits (occFlavour ℚ 1) lineKind (endScan Nat) false = some 1 ∧ lineHits (occFlavour ℚ 1) lineKind (endScan Nat) true = some 0 ∧ lineHits (occFlavour ℚ 1) longLineKind (endScan Nat) true = some 1) ∧
    (lineHits (weightedFlavour ℚ 1) lineKind (farScan ℚ) false = some 1 ∧ lineHits (weightedFlavour ℚ 1) lineKind (farScan ℚ) true = some 0) ∧
    (lineHits (weightedFlavour ℚ 1) lineKind (endScan ℚ) false = some 1 ∧ lineHits (weightedFlavour ℚ 1) lineKind (endScan ℚ) true = some 0 ∧ lineHits (weightedFlavour ℚ 1) longLineKind (endScan ℚ) true = some 1) := by
  decide +kernel

theorem line_region (n : Nat) (p : Pt ℚ 1) : Region (2 : ℚ) (.static (fun _ => n) (fun _ => -5)) p ↔ -5 ≤ p 0 ∧ p 0 < 2 * (n : ℚ) - 6 := by
  show (∀ a : Fin 1, ((-5 : Int) : ℚ) * (2 / 2) ≤ p a ∧ p a < (((-5 : Int) : ℚ) + 2 * ((n : Nat) : ℚ) - 1) * (2 / 2)) ↔ _
  rw [Fin.forall_fin_one]
  constructor <;> rintro ⟨h1, h2⟩ <;> constructor <;> push_cast at * <;> linarith

theorem end_runs : (lineRun (occFlavour ℚ 1) lineKind (endScan Nat) true).isSome = true ∧ (lineRun (occFlavour ℚ 1) longLineKind (endScan Nat) true).isSome = true ∧
    (lineRun (weightedFlavour ℚ 1) lineKind (endScan ℚ) true).isSome = true ∧ (lineRun (weightedFlavour ℚ 1) longLineKind (endScan ℚ) true).isSome = true := by decide +kernel

/-- **C112** (refuted for visibility-aware insertions, both classes): the same scan, all of whose points and rays lie within the smaller map, leaves a hit in a cell well inside of the larger map and none in the same cell of the smaller one. -/
theorem C112_visible_refuted : ∃ (k k' : Kind 1) (g : Geo ℚ 1) (vm : VisModel ℚ), Window g.r k k' ∧ CellWithin g.r k 0 (fun _ => 2) ∧
    (∃ (s : Scan ℚ 1 Nat) (occ : Occ Nat (Pt ℚ 1) → ℚ) (t : St k.backend (Occ Nat (Pt ℚ 1))) (t' : St k'.backend (Occ Nat (Pt ℚ 1))), (∀ p ∈ s.cloud, Region g.r k (g.toMap (s.pose p))) ∧ (∀ p q, ∀ b ∈ s.ray p q, ValidBundle k b) ∧
      occRun (occFlavour ℚ 1) g k.dyn (fun _ _ => []) (fun _ => true) [.insertVisible s (some occ) (some vm)] (k.init _) = some t ∧
      occRun (occFlavour ℚ 1) g k'.dyn (fun _ _ => []) (fun _ => true) [.insertVisible s (some occ) (some vm)] (k'.init _) = some t' ∧
      ((t.content 0 fun _ => 2).getD Occ.new).numOccupied = 0 ∧ ((t'.content 0 fun _ => 2).getD Occ.new).numOccupied = 1) ∧
    (∃ (s : Scan ℚ 1 ℚ) (occ : Occ ℚ (Pt ℚ 1 × ℚ) → ℚ) (t : St k.backend (Occ ℚ (Pt ℚ 1 × ℚ))) (t' : St k'.backend (Occ ℚ (Pt ℚ 1 × ℚ))), (∀ p ∈ s.cloud, Region g.r k (g.toMap (s.pose p))) ∧ (∀ p q, ∀ b ∈ s.ray p q, ValidBundle k b) ∧
      occRun (weightedFlavour ℚ 1) g k.dyn (fun _ _ => []) (fun _ => true) [.insertVisible s (some occ) (some vm)] (k.init _) = some t ∧
      occRun (weightedFlavour ℚ 1) g k'.dyn (fun _ _ => []) (fun _ => true) [.insertVisible s (some occ) (some vm)] (k'.init _) = some t' ∧
      ((t.content 0 fun _ => 2).getD Occ.new).samples.card = 0 ∧ ((t'.content 0 fun _ => 2).getD Occ.new).samples.card = 1) := by
  have hreg : ∀ p ∈ ([fun _ => -1] : List (Pt ℚ 1)), Region lineGeo.r lineKind (lineGeo.toMap (fun a => p a + 11 / 2)) := by
    intro p hp
    rw [List.mem_singleton.1 hp]
    exact (line_region 6 _).2 ⟨by show (-5 : ℚ) ≤ -1 + 11 / 2; norm_num, by show (-1 : ℚ) + 11 / 2 < 2 * ((6 : Nat) : ℚ) - 6; norm_num⟩
  have hray : ∀ b ∈ ([fun _ => 5] : List (Idx 1)), ValidBundle lineKind b := by
    intro b hb
    rw [List.mem_singleton.1 hb]
    intro a
    show (-5 : Int) ≤ 5 ∧ (5 : Int) < -5 + 2 * ((6 : Nat) : Int) - 1
    norm_num
  refine ⟨lineKind, longLineKind, lineGeo, visVm, ?_, ?_, ?_, ?_⟩
  · intro p hp
    have := (line_region 6 p).1 hp
    exact (line_region 8 p).2 ⟨this.1, this.2.trans (by norm_num)⟩
  · intro p hp
    have := hp 0
    refine (line_region 6 p).2 ?_
    simp only [shift, Nat.zero_testBit] at this
    norm_num [lineGeo] at this ⊢
    exact ⟨by linarith, this.2⟩
  · exact ⟨endScan Nat, anyHit, _, _, hreg, fun _ _ => hray, (Option.some_get end_runs.1).symm, (Option.some_get end_runs.2.1).symm, by decide +kernel, by decide +kernel⟩
  · exact ⟨endScan ℚ, anyHit, _, _, hreg, fun _ _ => hray, (Option.some_get end_runs.2.2.1).symm, (Option.some_get end_runs.2.2.2).symm, by decide +kernel, by decide +kernel⟩

/-- the visibility model of the concrete cases meets the conditions of the theorems -/
theorem visVm_probabilities : Probabilities visVm ∧ visVm.probFree < visVm.probPrior ∧ visVm.probFree ≤ visVm.probOcc ∧ visVm.probOcc < 1 ∧ 0 < visVm.probPrior := by
  unfold Probabilities visVm; norm_num

/-- Non-vacuity of `C116_border_refuted`: the scan `endScan` and the bundle 5. -/
example : (∀ a : Fin 1, (∃ a', a' ≠ a ∧ ((fun _ => 5 : Idx 1) a' < -5 ∨ -5 + 2 * ((6 : Nat) : Int) - 1 ≤ (fun _ => 5 : Idx 1) a')) ∨ (fun _ => 5 : Idx 1) a + 1 < -5 ∨ -5 + 2 * ((6 : Nat) : Int) - 1 ≤ (fun _ => 5 : Idx 1) a + 1) ∧
    InBundle lineGeo.r (fun _ => 5 : Idx 1) (lineGeo.toMap ((endScan Nat).pose 0)) ∧ ∀ b, (rayOf lineGeo lineKind (endScan Nat) b).head? = some (fun _ => 5) ∧ (farScan Nat).ray (fun _ => 1 / 2) (fun _ => 9 / 2) ≠ [] := by
  refine ⟨fun a => Or.inr (Or.inr (by norm_num)), fun a => ?_, fun b => ⟨rfl, by simp [farScan]⟩⟩
  show ((5 : Int) : ℚ) * (2 / 2) ≤ (0 : ℚ) + 11 / 2 ∧ (0 : ℚ) + 11 / 2 < (((5 : Int) : ℚ) + 1) * (2 / 2)
  norm_num

/-- Non-vacuity of the exact theorems: the hits of `farScan` are in the one bundle 4, and on the new map the product for its ray is (3/4)^4, below the prior 1/2. -/
example : hitBundles lineGeo lineKind (farScan Nat) = {fun _ => 4} ∧ (rayOf lineGeo lineKind (farScan Nat) (fun _ => 4)).length = 4 ∧
    (∀ x ∈ rayOf lineGeo lineKind (farScan Nat) (fun _ => 4), ¬ Walled lineKind (fun _ => 0) x) ∧ OccReachable (occFlavour ℚ 1) lineKind lineGeo (fun _ _ => []) (fun _ => true) (lineKind.init _) := by
  refine ⟨?_, rfl, fun x hx hw => ?_, ⟨[], rfl⟩⟩
  · classical
    have hh : hits lineGeo lineKind (farScan Nat) = {fun _ => 9 / 2} := by
      unfold hits acceptedPoints
      rw [Multiset.filter_eq_self.2]
      · have e : (fun a : Fin 1 => (4 : ℚ) + 1 / 2) = fun _ => 9 / 2 := by funext a; norm_num
        show (([fun a : Fin 1 => (4 : ℚ) + 1 / 2] : List (Pt ℚ 1)) : Multiset (Pt ℚ 1)) = _
        rw [e]; rfl
      · intro p hp
        have hp' : p ∈ ([fun a : Fin 1 => (4 : ℚ) + 1 / 2] : List (Pt ℚ 1)) := hp
        rw [List.mem_singleton.1 hp']
        exact (line_region 6 _).2 ⟨by norm_num, by norm_num⟩
    unfold hitBundles
    rw [hh]
    have e : (fun (p : Pt ℚ 1) (a : Fin 1) => ⌊p a / (lineGeo.r / 2)⌋) (fun _ => 9 / 2) = fun _ => (4 : Int) := by funext a; show ⌊(9 / 2 : ℚ) / (2 / 2)⌋ = 4; norm_num
    rw [Multiset.map_singleton, Multiset.toFinset_singleton]
    exact congrArg _ e
  · have hx' : x ∈ ([fun _ => 0, fun _ => 1, fun _ => 2, fun _ => 3] : List (Idx 1)) := hx
    simp only [List.mem_cons, List.not_mem_nil, or_false] at hx'
    refine hw 0 fun a => ?_
    show (-5 : Int) ≤ towards (fun _ => 0) x 0 a ∧ towards (fun _ => 0) x 0 a < -5 + 2 * ((6 : Nat) : Int) - 1
    rw [Subsingleton.elim a 0]
    rcases hx' with rfl | rfl | rfl | rfl <;> norm_num [towards]

end Ndt
