import Verif.Props.OccVisible
import Verif.Spec.Visibility

/-! Property theorems C29 and C67: the visibility of bundles and the outcome of a scan with one hit bundle. -/

namespace Ndt
open St

section
variable {K : Type} [Field K] [LinearOrder K] [IsStrictOrderedRing K] [FloorRing K] {d : Nat}

theorem towards_eq (s b : Idx d) (a : Fin d) : occlusionIndex s b a = Spec.towards s b a := by
  funext j
  unfold occlusionIndex Spec.towards Function.update
  by_cases h : j = a
  · subst h
    simp only [if_true]
    by_cases h : s j < b j
    · rw [if_pos h, if_pos h, dif_pos trivial]; ring
    · rw [if_neg h, if_neg h, dif_pos trivial]
  · rw [dif_neg h, if_neg h]

theorem binCell_eq (b : Idx d) (c : Nat) : generateIndex b c = Spec.binCell b c := by
  rw [generateIndex_eq_iff]
  intro i
  unfold Spec.binCell
  split <;> omega

omit [LinearOrder K] [FloorRing K] [IsStrictOrderedRing K] in
theorem mean_occ (f : Nat → K) : ((List.range (twoPow d)).map fun c => (1 / (twoPow d : K)) * f c).sum = (∑ c ∈ Finset.range (2 ^ d), f c) / 2 ^ d := by
  rw [List.sum_map_mul_left, twoPow_eq, Finset.sum_range, ← List.sum_ofFn, List.ofFn_eq_map, one_div, div_eq_inv_mul]
  congr 1
  · push_cast; rfl
  · rw [← List.map_coe_finRange_eq_range, List.map_map]; rfl

variable {D : Type} [Inhabited D]

open scoped Classical in
theorem bundleOccupancy_eq (k : Kind d) (occ : D → K) (b : Idx d) (st : St k.backend D) (hI : RInv k.lawful k.dyn st) (hv : st.valid k.dyn b = true) (y : K)
    (h : bundleOccupancy k.dyn occ b st = some y) : y = Spec.bundleOcc occ st.content st.abs.allocated b := by
  have hok : k.backend.ok st.bundles b = true := by
    by_contra hok
    unfold bundleOccupancy getBundle at h
    rw [if_pos hv, if_neg hok] at h
    cases h
  obtain ⟨h1, h2⟩ := bundleOccupancy_spec k.lawful k.dyn occ b st hI hok hv
  unfold Spec.bundleOcc
  by_cases ha : b ∈ st.abs.allocated
  · rw [if_pos ha, ← Option.some.inj ((h1 ha).symm.trans h), mean_occ]
    refine congrArg (· / _) (Finset.sum_congr rfl fun c _ => ?_)
    rw [binCell_eq]
    rfl
  · rw [if_neg ha]
    exact Option.some.inj (h.symm.trans (h2 ha))

open scoped Classical in
theorem occlusionProb_eq (k : Kind d) (occ : D → K) (s b : Idx d) (st : St k.backend D) (hI : RInv k.lawful k.dyn st)
    (hv : ∀ i, st.valid k.dyn i = true ↔ Spec.ValidBundle k i) :
    ∀ (l : List (Fin d)) (x y : K), x ≤ 1 → occlusionProb k.dyn occ s b st l x = some y →
    y = min x ((l.map fun a => if Spec.ValidBundle k (Spec.towards s b a) then Spec.bundleOcc occ st.content st.abs.allocated (Spec.towards s b a) else 1).foldr min 1)
  | [], x, y, hx, h => by cases h; exact (min_eq_left hx).symm
  | a :: l, x, y, hx, h => by
    unfold occlusionProb at h
    rw [towards_eq] at h
    rw [List.map_cons, List.foldr_cons]
    by_cases hva : st.valid k.dyn (Spec.towards s b a) = true
    · rw [if_pos hva] at h
      rw [if_pos ((hv _).1 hva)]
      cases hb : bundleOccupancy k.dyn occ (Spec.towards s b a) st with
      | none => rw [hb] at h; cases h
      | some o =>
        rw [hb] at h
        rw [occlusionProb_eq k occ s b st hI hv l _ y (le_trans (min_le_left _ _) hx) h, bundleOccupancy_eq k occ _ st hI hva o hb, min_assoc]
    · rw [if_neg hva] at h
      rw [if_neg (fun hh => hva ((hv _).2 hh)), occlusionProb_eq k occ s b st hI hv l x y hx h, ← min_assoc, min_eq_left hx]

theorem currentVisibility_eq (k : Kind d) (occ : D → K) (vm : VisModel K) (s b : Idx d) (st : St k.backend D) (hI : RInv k.lawful k.dyn st)
    (hv : ∀ i, st.valid k.dyn i = true ↔ Spec.ValidBundle k i) (y : K) (h : currentVisibility k.dyn occ vm s b st = some y) :
    y = Spec.visibility k occ vm st.content st.abs.allocated s b := by
  unfold currentVisibility at h
  obtain ⟨o, ho, rfl⟩ := Option.map_eq_some_iff.1 h
  have hl := occlusionProb_eq k occ s b st hI hv (List.finRange d) 1 o (le_refl _) ho
  have hle : ∀ m : List K, m.foldr min 1 ≤ 1 := by
    intro m
    induction m with
    | nil => exact le_refl _
    | cons z m ih => exact le_trans (min_le_right _ _) ih
  rw [min_eq_right (hle _)] at hl
  unfold Spec.visibility Spec.occlusion
  rw [← hl]

theorem visRay_walk {W : Type} [AddCommMonoid W] (k : Kind d) (occ : D → K) (vm : VisModel K) (sb : Idx d) (n : W) (st : St k.backend D) (hI : RInv k.lawful k.dyn st)
    (hv : ∀ i, st.valid k.dyn i = true ↔ Spec.ValidBundle k i) :
    ∀ (cells : List (Idx d)) (v : K) (free : List (Idx d × W)) (o : Option (K × List (Idx d × W))), visRay k.dyn occ vm sb n st cells v free = some o →
    o = (Spec.walk vm.probPrior (Spec.visibility k occ vm st.content st.abs.allocated sb) cells v).map fun v' => (v', addRay (st.valid k.dyn) n cells free)
  | [], v, free, o, h => by cases h; rfl
  | x :: l, v, free, o, h => by
    unfold visRay at h
    unfold Spec.walk
    cases hy : currentVisibility k.dyn occ vm sb x st with
    | none => rw [hy] at h; cases h
    | some y =>
      rw [hy] at h
      simp only at h
      rw [← currentVisibility_eq k occ vm sb x st hI hv y hy]
      by_cases hp : v * y < vm.probPrior
      · rw [if_pos hp] at h
        rw [if_pos hp]
        cases h; rfl
      · rw [if_neg hp] at h
        rw [if_neg hp, visRay_walk k occ vm sb n st hI hv l _ _ o h]
        rfl

end

section
variable {K : Type} [Field K] [LinearOrder K] [IsStrictOrderedRing K] [FloorRing K] {d : Nat} {W E : Type} [AddCommMonoid W]

open scoped Classical in
theorem visible_single (fl : Flavour K d W E) (hmean : ∀ s : Multiset (Pt K d), fl.mean (s.map fl.sample) = Spec.meanOf s) (k : Kind d) (g : Geo K d) (hr : 0 < g.r)
    (defRay : Pt K d → Pt K d → List (Idx d)) (exp : Occ W E → Bool) (st t : St k.backend (Occ W E)) (hst : OccReachable fl k g defRay exp st) (s : Scan K d W)
    (occ : Occ W E → K) (vm : VisModel K) (h : occInsertVisible fl g k.dyn defRay s (some occ) (some vm) st = some t) (b : Idx d)
    (hone : Spec.hitBundles g k s = {b}) (vis : Idx d → K)
    (hvis : vis = Spec.visibility k occ vm st.content st.abs.allocated (fun a => ⌊g.toMap (s.pose 0) a / (g.r / 2)⌋)) :
    (Spec.walk vm.probPrior vis (Spec.rayOf g k s b) 1 = none → t = st) ∧
    ∀ v, Spec.walk vm.probPrior vis (Spec.rayOf g k s b) 1 = some v → ∀ c, c < 2 ^ d → ∀ i,
      ((t.content c i).getD Occ.new).samples = ((st.content c i).getD Occ.new).samples +
        (if vm.probPrior ≤ v * vis b then ((Spec.hits g k s).filter (Spec.InCell g.r c i)).map fl.sample else 0) ∧
      ((t.content c i).getD Occ.new).free = ((st.content c i).getD Occ.new).free +
        ∑ b ∈ Spec.hitBundles g k s, ((Spec.rayOf g k s b).filter fun x => decide (Spec.ValidBundle k x ∧ Spec.BundleInCell g.r x c i ∧
          (true = true → x ∉ Spec.hitBundles g k s))).length • fl.amount ((Spec.hitsIn g k s b).map fl.sample) := by
  have hI := hst.rinv
  have hv : st.valid k.dyn = (k.init (Occ W E)).abs.valid k.dyn := funext hst.keeps.valid
  have hv' : ∀ i, st.valid k.dyn i = true ↔ Spec.ValidBundle k i := by
    intro i; rw [hv]; exact validBundle_iff (Occ W E) k i
  have hkeys : (occCollect fl g ((k.init (Occ W E)).abs.valid k.dyn) s.pose s.cloud).map Prod.fst =
      (collect g ((k.init (Occ W E)).abs.valid k.dyn) s.pose (s.cloud.filter fun p => g.normal p)).map Prod.fst := by
    unfold occCollect; rw [List.map_map]; rfl
  have hmem : ∀ x, x ∈ (occCollect fl g ((k.init (Occ W E)).abs.valid k.dyn) s.pose s.cloud).map Prod.fst ↔ x = b := by
    intro x
    rw [hkeys, ← mem_hitBundles (Occ W E) g hr, hone, Finset.mem_singleton]
  have hnd : ((occCollect fl g ((k.init (Occ W E)).abs.valid k.dyn) s.pose s.cloud).map Prod.fst).Nodup := by
    rw [hkeys]; exact collect_nodup ..
  obtain ⟨e, he, heb⟩ : ∃ e, occCollect fl g ((k.init (Occ W E)).abs.valid k.dyn) s.pose s.cloud = [e] ∧ e.1 = b := by
    cases hc : occCollect fl g ((k.init (Occ W E)).abs.valid k.dyn) s.pose s.cloud with
    | nil => rw [hc] at hmem; exact absurd ((hmem b).2 rfl) (by simp)
    | cons e l =>
      rw [hc] at hmem hnd
      refine ⟨e, ?_, (hmem e.1).1 (by simp)⟩
      cases l with
      | nil => rfl
      | cons e' l =>
        have h1 := (hmem e.1).1 (by simp)
        have h2 := (hmem e'.1).1 (by simp)
        simp [h1, h2] at hnd
  have hray : s.ray (rayStart g s.pose) (fl.mean e.2) = Spec.rayOf g k s b := by
    have hem : e ∈ occCollect fl g ((k.init (Occ W E)).abs.valid k.dyn) s.pose s.cloud := by rw [he]; simp
    obtain ⟨x, hx, hxe⟩ := List.mem_map.1 hem
    have hxb : x.1 = b := by rw [← heb, ← hxe]
    rw [← hxe]
    simp only
    rw [collect_value g _ s.pose _ x hx, hitsIn_eq (Occ W E) g hr k s x.1, hmean, hxb]
    rfl
  have hsb : toBundleIndex g.r (rayStart g s.pose) = fun a => ⌊g.toMap (s.pose 0) a / (g.r / 2)⌋ := by
    rw [floor_bundle]; rfl
  simp only [occInsertVisible, hv, he] at h
  unfold visHits at h
  rw [hray, hsb] at h
  cases hw : visRay k.dyn occ vm (fun a => ⌊g.toMap (s.pose 0) a / (g.r / 2)⌋) (fl.amount e.2) st (Spec.rayOf g k s b) 1 [] with
  | none => rw [hw] at h; cases h
  | some o =>
    have ho := visRay_walk k occ vm _ (fl.amount e.2) st hI hv' _ _ _ o hw
    rw [← hvis] at ho
    rw [hw] at h
    refine ⟨fun hn => ?_, fun v hn => ?_⟩
    · rw [hn] at ho
      rw [ho] at h
      simpa using h.symm
    · rw [hn] at ho
      rw [ho] at h
      simp only [Option.map_some] at h
      cases hy : currentVisibility k.dyn occ vm (fun a => ⌊g.toMap (s.pose 0) a / (g.r / 2)⌋) e.1 st with
      | none => rw [hy] at h; cases h
      | some y =>
        have hyb : y = vis b := by
          rw [hvis, ← heb]; exact currentVisibility_eq k occ vm _ _ st hI hv' y hy
        rw [hy, hyb] at h
        have hfree : eraseKeys [e] (addRay (st.valid k.dyn) (fl.amount e.2) (Spec.rayOf g k s b) []) =
            eraseKeys [e] (rayFree fl ((k.init (Occ W E)).abs.valid k.dyn) s.ray (rayStart g s.pose) [e] []) := by
          unfold rayFree
          simp only [List.foldl_cons, List.foldl_nil]
          rw [hv, hray]
        have hfree' : s.order (eraseKeys [e] (addRay (st.valid k.dyn) (fl.amount e.2) (Spec.rayOf g k s b) [])) =
            insertFree fl g ((k.init (Occ W E)).abs.valid k.dyn) true s := by
          unfold insertFree
          simp only [he, if_true]
          rw [hfree]
        by_cases hp : vm.probPrior ≤ v * vis b
        · simp only [if_pos hp] at h
          rw [update_hit_eq] at h
          have hcase : occAdd k.dyn ([e].map hitOf ++ if true then (insertFree fl g ((k.init (Occ W E)).abs.valid k.dyn) true s).map missOf else []) st = some t := by
            rw [if_pos rfl, occAdd_append]
            cases hu : occAdd k.dyn [hitOf e] st with
            | none => rw [hu] at h; cases h
            | some st1 =>
              rw [hu] at h
              simp only [visHits, occFree_eq, hfree'] at h
              rw [List.map_cons, List.map_nil, hu]
              exact h
          have := visible_contents fl hmean k g hr st t hI s [e] (by rw [he]) true hcase
          intro c hc i
          obtain ⟨h1, h2⟩ := this c hc i
          rw [if_pos hp]
          refine ⟨?_, h2.trans (congrArg _ (if_pos rfl))⟩
          rw [h1]
          refine congrArg₂ (· + ·) rfl (congrArg (Multiset.map fl.sample) (Multiset.filter_congr fun p hp => ?_))
          refine ⟨fun h => h.1, fun h => ⟨h, b, by simp [heb], ?_⟩⟩
          have : (fun a => ⌊p a / (g.r / 2)⌋) ∈ Spec.hitBundles g k s := Multiset.mem_toFinset.2 (Multiset.mem_map.2 ⟨p, hp, rfl⟩)
          rw [hone, Finset.mem_singleton, floor_bundle] at this
          exact (C01_bundle_contains_point hr p b).1 this
        · simp only [if_neg hp] at h
          have hcase : occAdd k.dyn (([] : List (Idx d × Multiset E)).map hitOf ++ if true then (insertFree fl g ((k.init (Occ W E)).abs.valid k.dyn) true s).map missOf else []) st =
              some t := by
            rw [if_pos rfl]
            simp only [visHits, occFree_eq, hfree'] at h
            exact h
          have := visible_contents fl hmean k g hr st t hI s [] (List.nil_sublist _) true hcase
          intro c hc i
          obtain ⟨h1, h2⟩ := this c hc i
          rw [if_neg hp]
          refine ⟨?_, h2.trans (congrArg _ (if_pos rfl))⟩
          rw [h1]
          simp

omit [AddCommMonoid W] [IsStrictOrderedRing K] in
open scoped Classical in
theorem misses_single (k : Kind d) (g : Geo K d) (s : Scan K d W) (b : Idx d) (hone : Spec.hitBundles g k s = {b}) (c : Nat) (i : Idx d) :
    Spec.misses true g k s c i = ((Spec.rayOf g k s b).filter fun x => decide (Spec.ValidBundle k x ∧ Spec.BundleInCell g.r x c i ∧ x ≠ b)).length * (Spec.hitsIn g k s b).card := by
  unfold Spec.misses
  rw [hone, Finset.sum_singleton]
  congr 3
  funext x
  simp

omit [IsStrictOrderedRing K] [FloorRing K] in
theorem walk_congr (prior : K) (vis vis' : Idx d → K) : ∀ (l : List (Idx d)) (v : K), (∀ x ∈ l, vis x = vis' x) → Spec.walk prior vis l v = Spec.walk prior vis' l v
  | [], _, _ => rfl
  | x :: l, v, h => by
    unfold Spec.walk
    rw [h x (List.mem_cons_self ..), walk_congr prior vis vis' l _ fun y hy => h y (List.mem_cons_of_mem _ hy)]

end

/-! ### C29: one hit bundle -/

section
variable {K : Type} [Field K] [LinearOrder K] [IsStrictOrderedRing K] [FloorRing K] {d : Nat}

open scoped Classical in
/-- **C29** (partial, occupancy maps). The exact outcome of `insertVisible` for a scan whose hits all lie in one bundle `b`, on every reachable map. The visibility of a bundle is
`Spec.visibility`. If the product of the visibilities along the ray falls below the prior, the map does not change. Otherwise the misses of the ray are counted, and the hits exactly if
the product including the visibility of `b` is at least the prior. Missing: scans with several hit bundles, where the property is false (`C29_independent_rays_refuted`). -/
theorem C29_occupancy_one_bundle_partial (k : Kind d) (g : Geo K d) (hr : 0 < g.r) (defRay : Pt K d → Pt K d → List (Idx d)) (exp : Occ Nat (Pt K d) → Bool)
    (st t : St k.backend (Occ Nat (Pt K d))) (hst : OccReachable (occFlavour K d) k g defRay exp st) (s : Scan K d Nat) (occ : Occ Nat (Pt K d) → K) (vm : VisModel K)
    (h : occInsertVisible (occFlavour K d) g k.dyn defRay s (some occ) (some vm) st = some t) (b : Idx d) (hone : Spec.hitBundles g k s = {b}) (vis : Idx d → K)
    (hvis : vis = Spec.visibility k occ vm st.content st.abs.allocated (fun a => ⌊g.toMap (s.pose 0) a / (g.r / 2)⌋)) :
    (Spec.walk vm.probPrior vis (Spec.rayOf g k s b) 1 = none → t = st) ∧
    ∀ v, Spec.walk vm.probPrior vis (Spec.rayOf g k s b) 1 = some v → ∀ c, c < 2 ^ d → ∀ i,
      ((t.content c i).getD Occ.new).samples = ((st.content c i).getD Occ.new).samples +
        (if vm.probPrior ≤ v * vis b then (Spec.hits g k s).filter (Spec.InCell g.r c i) else 0) ∧
      ((t.content c i).getD Occ.new).numFree = ((st.content c i).getD Occ.new).numFree + Spec.misses true g k s c i := by
  obtain ⟨h1, h2⟩ := visible_single (occFlavour K d) occFlavour_mean k g hr defRay exp st t hst s occ vm h b hone vis hvis
  refine ⟨h1, fun v hv c hc i => ?_⟩
  obtain ⟨h3, h4⟩ := h2 v hv c hc i
  rw [show (occFlavour K d).sample = id from rfl, Multiset.map_id] at h3
  refine ⟨h3, ?_⟩
  unfold Occ.numFree
  rw [h4]
  refine congrArg₂ (· + ·) rfl ?_
  unfold Spec.misses
  refine Finset.sum_congr rfl fun b _ => ?_
  rw [smul_eq_mul, show (occFlavour K d).sample = id from rfl, Multiset.map_id]
  rfl

open scoped Classical in
/-- **C29** (partial, weighted maps): as `C29_occupancy_one_bundle_partial`; every point has weight 1. -/
theorem C29_weighted_one_bundle_partial (k : Kind d) (g : Geo K d) (hr : 0 < g.r) (defRay : Pt K d → Pt K d → List (Idx d)) (exp : Occ K (Pt K d × K) → Bool)
    (st t : St k.backend (Occ K (Pt K d × K))) (hst : OccReachable (weightedFlavour K d) k g defRay exp st) (s : Scan K d K) (occ : Occ K (Pt K d × K) → K) (vm : VisModel K)
    (h : occInsertVisible (weightedFlavour K d) g k.dyn defRay s (some occ) (some vm) st = some t) (b : Idx d) (hone : Spec.hitBundles g k s = {b}) (vis : Idx d → K)
    (hvis : vis = Spec.visibility k occ vm st.content st.abs.allocated (fun a => ⌊g.toMap (s.pose 0) a / (g.r / 2)⌋)) :
    (Spec.walk vm.probPrior vis (Spec.rayOf g k s b) 1 = none → t = st) ∧
    ∀ v, Spec.walk vm.probPrior vis (Spec.rayOf g k s b) 1 = some v → ∀ c, c < 2 ^ d → ∀ i,
      ((t.content c i).getD Occ.new).samples = ((st.content c i).getD Occ.new).samples +
        (if vm.probPrior ≤ v * vis b then ((Spec.hits g k s).filter (Spec.InCell g.r c i)).map (fun p => (p, 1)) else 0) ∧
      ((t.content c i).getD Occ.new).numFree = ((st.content c i).getD Occ.new).numFree + (Spec.misses true g k s c i : K) := by
  obtain ⟨h1, h2⟩ := visible_single (weightedFlavour K d) weightedFlavour_mean k g hr defRay exp st t hst s occ vm h b hone vis hvis
  refine ⟨h1, fun v hv c hc i => ?_⟩
  obtain ⟨h3, h4⟩ := h2 v hv c hc i
  refine ⟨h3, ?_⟩
  unfold Occ.numFree
  rw [h4]
  refine congrArg₂ (· + ·) rfl ?_
  unfold Spec.misses
  rw [Nat.cast_sum]
  refine Finset.sum_congr rfl fun b _ => ?_
  rw [weightedFlavour_amount, nsmul_eq_mul, Nat.cast_mul]

/-! ### C67 -/

/-- the visibility of `x` depends on the occupancies of the faces `towards s x` only -/
theorem visibility_congr {D : Type} [Inhabited D] (k : Kind d) (occ : D → K) (vm : VisModel K) (content content' : Nat → Idx d → Option D) (alloc alloc' : Set (Idx d)) (s x : Idx d)
    (h : ∀ a, Spec.ValidBundle k (Spec.towards s x a) → Spec.bundleOcc occ content alloc (Spec.towards s x a) = Spec.bundleOcc occ content' alloc' (Spec.towards s x a)) :
    Spec.visibility k occ vm content alloc s x = Spec.visibility k occ vm content' alloc' s x := by
  have : Spec.occlusion k occ content alloc s x = Spec.occlusion k occ content' alloc' s x := by
    unfold Spec.occlusion
    refine congrArg (fun l => List.foldr min (1 : K) l) (List.map_congr_left fun a _ => ?_)
    by_cases hv : Spec.ValidBundle k (Spec.towards s x a)
    · rw [if_pos hv, if_pos hv, h a hv]
    · rw [if_neg hv, if_neg hv]
  unfold Spec.visibility
  rw [this]

/-- **C67** (partial, occupancy maps). Two reachable maps, of any two histories, in which the faces toward the origin of all bundles of the ray and of the hit bundle have the same
occupancy: the same scan (hits in one bundle) changes both maps in the same way. Missing: for a bundle that shares a coordinate with the origin the face on that axis lies behind it or
beside it, not between it and the origin, so the property is false (`C67_only_between_refuted`). -/
theorem C67_occupancy_local_partial (k : Kind d) (g : Geo K d) (hr : 0 < g.r) (defRay : Pt K d → Pt K d → List (Idx d)) (exp : Occ Nat (Pt K d) → Bool)
    (st t st' t' : St k.backend (Occ Nat (Pt K d))) (hst : OccReachable (occFlavour K d) k g defRay exp st) (hst' : OccReachable (occFlavour K d) k g defRay exp st')
    (s : Scan K d Nat) (occ : Occ Nat (Pt K d) → K) (vm : VisModel K)
    (h : occInsertVisible (occFlavour K d) g k.dyn defRay s (some occ) (some vm) st = some t)
    (h' : occInsertVisible (occFlavour K d) g k.dyn defRay s (some occ) (some vm) st' = some t') (b sb : Idx d) (hone : Spec.hitBundles g k s = {b})
    (hsb : Spec.InBundle g.r sb (g.toMap (s.pose 0)))
    (hag : ∀ x, x = b ∨ x ∈ Spec.rayOf g k s b → ∀ a, Spec.ValidBundle k (Spec.towards sb x a) →
      Spec.bundleOcc occ st.content st.abs.allocated (Spec.towards sb x a) = Spec.bundleOcc occ st'.content st'.abs.allocated (Spec.towards sb x a))
    (c : Nat) (hc : c < 2 ^ d) (i : Idx d) :
    ((t.content c i).getD Occ.new).samples + ((st'.content c i).getD Occ.new).samples = ((t'.content c i).getD Occ.new).samples + ((st.content c i).getD Occ.new).samples ∧
    ((t.content c i).getD Occ.new).numFree + ((st'.content c i).getD Occ.new).numFree = ((t'.content c i).getD Occ.new).numFree + ((st.content c i).getD Occ.new).numFree := by
  classical
  have hsb' : (fun a => ⌊g.toMap (s.pose 0) a / (g.r / 2)⌋) = sb := by
    rw [floor_bundle]; exact (C01_bundle_contains_point hr _ sb).2 hsb
  obtain ⟨h1, h2⟩ := C29_occupancy_one_bundle_partial k g hr defRay exp st t hst s occ vm h b hone _ rfl
  obtain ⟨h1', h2'⟩ := C29_occupancy_one_bundle_partial k g hr defRay exp st' t' hst' s occ vm h' b hone _ rfl
  rw [hsb'] at h1 h2 h1' h2'
  have hb := visibility_congr k occ vm st.content st'.content st.abs.allocated st'.abs.allocated sb b (hag b (Or.inl rfl))
  have hw := walk_congr vm.probPrior (Spec.visibility k occ vm st.content st.abs.allocated sb) (Spec.visibility k occ vm st'.content st'.abs.allocated sb) (Spec.rayOf g k s b) 1
    fun x hx => visibility_congr k occ vm _ _ _ _ sb x (hag x (Or.inr hx))
  cases hn : Spec.walk vm.probPrior (Spec.visibility k occ vm st'.content st'.abs.allocated sb) (Spec.rayOf g k s b) 1 with
  | none =>
    rw [h1 (hw.trans hn), h1' hn]
    exact ⟨add_comm _ _, add_comm _ _⟩
  | some v =>
    obtain ⟨a1, a2⟩ := h2 v (hw.trans hn) c hc i
    obtain ⟨b1, b2⟩ := h2' v hn c hc i
    rw [a1, a2, b1, b2, hb]
    exact ⟨by abel, by omega⟩

/-- **C67** (partial, weighted maps): as `C67_occupancy_local_partial`. -/
theorem C67_weighted_local_partial (k : Kind d) (g : Geo K d) (hr : 0 < g.r) (defRay : Pt K d → Pt K d → List (Idx d)) (exp : Occ K (Pt K d × K) → Bool)
    (st t st' t' : St k.backend (Occ K (Pt K d × K))) (hst : OccReachable (weightedFlavour K d) k g defRay exp st) (hst' : OccReachable (weightedFlavour K d) k g defRay exp st')
    (s : Scan K d K) (occ : Occ K (Pt K d × K) → K) (vm : VisModel K)
    (h : occInsertVisible (weightedFlavour K d) g k.dyn defRay s (some occ) (some vm) st = some t)
    (h' : occInsertVisible (weightedFlavour K d) g k.dyn defRay s (some occ) (some vm) st' = some t') (b sb : Idx d) (hone : Spec.hitBundles g k s = {b})
    (hsb : Spec.InBundle g.r sb (g.toMap (s.pose 0)))
    (hag : ∀ x, x = b ∨ x ∈ Spec.rayOf g k s b → ∀ a, Spec.ValidBundle k (Spec.towards sb x a) →
      Spec.bundleOcc occ st.content st.abs.allocated (Spec.towards sb x a) = Spec.bundleOcc occ st'.content st'.abs.allocated (Spec.towards sb x a))
    (c : Nat) (hc : c < 2 ^ d) (i : Idx d) :
    ((t.content c i).getD Occ.new).samples + ((st'.content c i).getD Occ.new).samples = ((t'.content c i).getD Occ.new).samples + ((st.content c i).getD Occ.new).samples ∧
    ((t.content c i).getD Occ.new).numFree + ((st'.content c i).getD Occ.new).numFree = ((t'.content c i).getD Occ.new).numFree + ((st.content c i).getD Occ.new).numFree := by
  classical
  have hsb' : (fun a => ⌊g.toMap (s.pose 0) a / (g.r / 2)⌋) = sb := by
    rw [floor_bundle]; exact (C01_bundle_contains_point hr _ sb).2 hsb
  obtain ⟨h1, h2⟩ := C29_weighted_one_bundle_partial k g hr defRay exp st t hst s occ vm h b hone _ rfl
  obtain ⟨h1', h2'⟩ := C29_weighted_one_bundle_partial k g hr defRay exp st' t' hst' s occ vm h' b hone _ rfl
  rw [hsb'] at h1 h2 h1' h2'
  have hb := visibility_congr k occ vm st.content st'.content st.abs.allocated st'.abs.allocated sb b (hag b (Or.inl rfl))
  have hw := walk_congr vm.probPrior (Spec.visibility k occ vm st.content st.abs.allocated sb) (Spec.visibility k occ vm st'.content st'.abs.allocated sb) (Spec.rayOf g k s b) 1
    fun x hx => visibility_congr k occ vm _ _ _ _ sb x (hag x (Or.inr hx))
  cases hn : Spec.walk vm.probPrior (Spec.visibility k occ vm st'.content st'.abs.allocated sb) (Spec.rayOf g k s b) 1 with
  | none =>
    rw [h1 (hw.trans hn), h1' hn]
    exact ⟨add_comm _ _, add_comm _ _⟩
  | some v =>
    obtain ⟨a1, a2⟩ := h2 v (hw.trans hn) c hc i
    obtain ⟨b1, b2⟩ := h2' v hn c hc i
    rw [a1, a2, b1, b2, hb]
    exact ⟨by abel, by ring⟩

end

/-! ### Concrete maps -/

/-- a distribution with a hit is occupied, one without is free -/
def hitOcc {W E : Type} (o : Occ W E) : ℚ := if o.numOccupied = 0 then 0 else 1

def q00 : Pt ℚ 2 := ![1/2, 1/2]
def q12 : Pt ℚ 2 := ![3/2, 5/2]

/-- one hit in the bundle (0,0) -/
def histNear : List (OccMapOp ℚ 2 Nat (Pt ℚ 2)) := [.insert (visScan Nat [q00] fun _ _ => [])]

/-- the same hit, a hit in the bundle (1,2), and the bundle (1,1) is accessed -/
def histBeside : List (OccMapOp ℚ 2 Nat (Pt ℚ 2)) := [.insert (visScan Nat [q00, q12] fun _ _ => []), .core (.bundleAt ![1, 1])]

def histRun (ops : List (OccMapOp ℚ 2 Nat (Pt ℚ 2))) : Option (St visKind.backend (Occ Nat (Pt ℚ 2))) :=
  occRun (occFlavour ℚ 2) unitGeo visKind.dyn xRay (fun _ => true) ops (visKind.init _)

def histNearMap : St visKind.backend (Occ Nat (Pt ℚ 2)) := (histRun histNear).get (by decide +kernel)
def histBesideMap : St visKind.backend (Occ Nat (Pt ℚ 2)) := (histRun histBeside).get (by decide +kernel)

def histScan (st : St visKind.backend (Occ Nat (Pt ℚ 2))) : Option (St visKind.backend (Occ Nat (Pt ℚ 2))) :=
  occInsertVisible (occFlavour ℚ 2) unitGeo visKind.dyn xRay (visScan Nat [pA] xRay) (some hitOcc) (some visVm) st

theorem histNear_reachable : OccReachable (occFlavour ℚ 2) visKind unitGeo xRay (fun _ => true) histNearMap := ⟨histNear, (Option.some_get _).symm⟩
theorem histBeside_reachable : OccReachable (occFlavour ℚ 2) visKind unitGeo xRay (fun _ => true) histBesideMap := ⟨histBeside, (Option.some_get _).symm⟩

/-- **C67 refuted**. Origin in the bundle (0,0), hit in the bundle (1,0); the box spanned by both consists of these two bundles. Two reachable maps hold the same samples in all
distributions of these two bundles and have allocated the same of them, but the hit is counted in one and not in the other: what decides is the bundle (1,1) beside the hit. -/
theorem C67_only_between_refuted : ∃ (k : Kind 2) (g : Geo ℚ 2) (vm : VisModel ℚ) (occ : Occ Nat (Pt ℚ 2) → ℚ) (ray : Pt ℚ 2 → Pt ℚ 2 → List (Idx 2)) (s : Scan ℚ 2 Nat)
    (st t st' t' : St k.backend (Occ Nat (Pt ℚ 2))),
    OccReachable (occFlavour ℚ 2) k g ray (fun _ => true) st ∧ OccReachable (occFlavour ℚ 2) k g ray (fun _ => true) st' ∧
    Spec.hitBundles g k s = {![1, 0]} ∧ Spec.InBundle g.r ![0, 0] (g.toMap (s.pose 0)) ∧
    (∀ b ∈ [(![0, 0] : Idx 2), ![1, 0]], (b ∈ st.abs.allocated ↔ b ∈ st'.abs.allocated) ∧
      ∀ c < 2 ^ 2, ((st.content c (Spec.binCell b c)).getD Occ.new).samples = ((st'.content c (Spec.binCell b c)).getD Occ.new).samples) ∧
    occInsertVisible (occFlavour ℚ 2) g k.dyn ray s (some occ) (some vm) st = some t ∧
    occInsertVisible (occFlavour ℚ 2) g k.dyn ray s (some occ) (some vm) st' = some t' ∧
    ((t.content 0 ![0, 0]).getD Occ.new).numOccupied = ((st.content 0 ![0, 0]).getD Occ.new).numOccupied + 1 ∧
    ((t'.content 0 ![0, 0]).getD Occ.new).numOccupied = ((st'.content 0 ![0, 0]).getD Occ.new).numOccupied := by
  have hcl : ∀ p ∈ [pA], p = pA ∨ p = pB ∨ p = pC := by simp
  refine ⟨visKind, unitGeo, visVm, hitOcc, xRay, visScan Nat [pA] xRay, histNearMap, (histScan histNearMap).get (by decide +kernel), histBesideMap,
    (histScan histBesideMap).get (by decide +kernel), histNear_reachable, histBeside_reachable, ?_, ?_, ?_, (Option.some_get _).symm, (Option.some_get _).symm, ?_, ?_⟩
  · ext b
    rw [mem_visScan_hitBundles Nat [pA] xRay hcl]; simp [tb_pA, eq_comm]
  · intro a; fin_cases a <;> norm_num [unitGeo, visScan]
  · intro b hb
    rw [Abs.mem_allocated, Abs.mem_allocated]
    revert b
    decide +kernel
  · decide +kernel
  · decide +kernel

/-! ### Non-vacuity -/

theorem histRay : Spec.rayOf unitGeo visKind (visScan Nat [pA] xRay) ![1, 0] = [![0, 0]] := by
  unfold Spec.rayOf
  rw [visScan_hitsIn Nat _ _ (by simp)]
  have : ([pA].filter fun p => decide (toBundleIndex 2 p = ![1, 0])) = [pA] := by
    rw [List.filter_cons, if_pos (by rw [tb_pA]; decide)]; rfl
  rw [this, show (([pA] : List (Pt ℚ 2)) : Multiset (Pt ℚ 2)) = {pA} from rfl, meanOf_single]
  exact xRay_pA 0

theorem bundleOcc_congr {D : Type} [Inhabited D] {d : Nat} (occ : D → ℚ) (content content' : Nat → Idx d → Option D) (alloc alloc' : Set (Idx d)) (b : Idx d)
    (h1 : b ∈ alloc ↔ b ∈ alloc') (h2 : ∀ c < 2 ^ d, content c (Spec.binCell b c) = content' c (Spec.binCell b c)) :
    Spec.bundleOcc occ content alloc b = Spec.bundleOcc occ content' alloc' b := by
  unfold Spec.bundleOcc
  by_cases h : b ∈ alloc
  · rw [if_pos h, if_pos (h1.1 h)]
    refine congrArg (· / _) (Finset.sum_congr rfl fun c hc => ?_)
    rw [h2 c (Finset.mem_range.1 hc)]
  · rw [if_neg h, if_neg fun h' => h (h1.2 h')]

instance : DecidableEq (Occ Nat (Pt ℚ 2)) := fun a b =>
  decidable_of_iff (a.free = b.free ∧ a.data = b.data) ⟨fun h => by cases a; cases b; simp_all, fun h => by rw [h]; exact ⟨rfl, rfl⟩⟩

/-- a hit in the bundle (0,0) and one in the bundle (-4,0) -/
def histFar : List (OccMapOp ℚ 2 Nat (Pt ℚ 2)) := [.insert (visScan Nat [q00, pC] fun _ _ => [])]
def histFarMap : St visKind.backend (Occ Nat (Pt ℚ 2)) := (histRun histFar).get (by decide +kernel)

/-- the hypotheses of `C67_occupancy_local_partial` hold for two maps that differ in the bundle (-4,0) -/
example : ∃ t t', histScan histNearMap = some t ∧ histScan histFarMap = some t' ∧
    OccReachable (occFlavour ℚ 2) visKind unitGeo xRay (fun _ => true) histFarMap ∧
    Spec.hitBundles unitGeo visKind (visScan Nat [pA] xRay) = {![1, 0]} ∧
    (∀ x, x = ![1, 0] ∨ x ∈ Spec.rayOf unitGeo visKind (visScan Nat [pA] xRay) ![1, 0] → ∀ a, Spec.ValidBundle visKind (Spec.towards ![0, 0] x a) →
      Spec.bundleOcc hitOcc histNearMap.content histNearMap.abs.allocated (Spec.towards ![0, 0] x a) =
      Spec.bundleOcc hitOcc histFarMap.content histFarMap.abs.allocated (Spec.towards ![0, 0] x a)) ∧
    histNearMap.content 0 ![-2, 0] ≠ histFarMap.content 0 ![-2, 0] := by
  refine ⟨(histScan histNearMap).get (by decide +kernel), (histScan histFarMap).get (by decide +kernel), (Option.some_get _).symm, (Option.some_get _).symm,
    ⟨histFar, (Option.some_get _).symm⟩, ?_, ?_, ?_⟩
  · ext b
    rw [mem_visScan_hitBundles Nat [pA] xRay (by simp)]; simp [tb_pA, eq_comm]
  · rw [histRay]
    intro x hx a hva
    clear hva
    refine bundleOcc_congr _ _ _ _ _ _ ?_ ?_
    · rw [Abs.mem_allocated, Abs.mem_allocated]
      rcases hx with rfl | hx
      · revert a; decide +kernel
      · rw [List.mem_singleton.1 hx]; revert a; decide +kernel
    · intro c hc
      rcases hx with rfl | hx
      · revert a c; decide +kernel
      · rw [List.mem_singleton.1 hx]; revert a c; decide +kernel
  · intro h
    have : (histNearMap.content 0 ![-2, 0]).isSome = (histFarMap.content 0 ![-2, 0]).isSome := by rw [h]
    revert this
    decide +kernel

end Ndt
