import Verif.Proofs.OccVisible
import Verif.Props.OccMap

/-! Property theorems C28–C30: visibility-aware insertion. -/

namespace Ndt
open St

section
variable {K : Type} [Field K] [LinearOrder K] [IsStrictOrderedRing K] [FloorRing K] {d : Nat}

omit [LinearOrder K] [IsStrictOrderedRing K] [FloorRing K] [Field K] in
theorem sum_groups {E : Type} (A : Multiset (Pt K d)) (tb : Pt K d → Idx d) (f : Pt K d → E) (P : Idx d → Bool) :
    ∀ l : List (Idx d × Multiset E), (l.map Prod.fst).Nodup → (∀ e ∈ l, e.2 = (A.filter fun p => tb p = e.1).map f) →
    ((l.filter fun e => P e.1).map Prod.snd).sum = (A.filter fun p => P (tb p) = true ∧ tb p ∈ l.map Prod.fst).map f
  | [], _, _ => by simp
  | e :: l, hn, h => by
    rw [List.map_cons, List.nodup_cons] at hn
    have ih := sum_groups A tb f P l hn.2 fun x hx => h x (List.mem_cons_of_mem _ hx)
    by_cases hp : P e.1 = true
    · rw [List.filter_cons, if_pos hp, List.map_cons, List.sum_cons, ih, h e (List.mem_cons_self ..), ← Multiset.map_add]
      refine congrArg _ ?_
      rw [Multiset.filter_add_filter]
      have h0 : A.filter (fun p => tb p = e.1 ∧ (P (tb p) = true ∧ tb p ∈ l.map Prod.fst)) = 0 := by
        rw [Multiset.filter_eq_nil]
        rintro p _ ⟨h1, _, h3⟩
        exact hn.1 (h1 ▸ h3)
      rw [h0, add_zero]
      refine Multiset.filter_congr fun p _ => ?_
      simp only [List.map_cons, List.mem_cons]
      constructor
      · rintro (h1 | ⟨h1, h2⟩)
        · exact ⟨h1 ▸ hp, Or.inl h1⟩
        · exact ⟨h1, Or.inr h2⟩
      · rintro ⟨h1, h2 | h2⟩
        · exact Or.inl h2
        · exact Or.inr ⟨h1, h2⟩
    · rw [List.filter_cons, if_neg hp, ih]
      refine congrArg _ (Multiset.filter_congr fun p _ => ?_)
      simp only [List.map_cons, List.mem_cons]
      constructor
      · rintro ⟨h1, h2⟩; exact ⟨h1, Or.inr h2⟩
      · rintro ⟨h1, h2 | h2⟩
        · exact absurd (h2 ▸ h1) hp
        · exact ⟨h1, h2⟩

section generic
variable {W E : Type} [AddCommMonoid W]

open scoped Classical in
/-- the effect of an insertion that records the hits `hs` and, if `all`, the misses of all rays -/
theorem visible_contents (fl : Flavour K d W E) (hmean : ∀ s : Multiset (Pt K d), fl.mean (s.map fl.sample) = Spec.meanOf s) (k : Kind d) (g : Geo K d) (hr : 0 < g.r)
    (st t : St k.backend (Occ W E)) (hI : RInv k.lawful k.dyn st) (s : Scan K d W) (hs : List (Idx d × Multiset E))
    (hsub : hs.Sublist (occCollect fl g ((k.init (Occ W E)).abs.valid k.dyn) s.pose s.cloud)) (all : Bool)
    (hcase : occAdd k.dyn (hs.map hitOf ++ if all then (insertFree fl g ((k.init (Occ W E)).abs.valid k.dyn) true s).map missOf else []) st = some t) :
    ∀ c, c < 2 ^ d → ∀ i,
      ((t.content c i).getD Occ.new).samples = ((st.content c i).getD Occ.new).samples +
        ((Spec.hits g k s).filter fun p => Spec.InCell g.r c i p ∧ ∃ b ∈ (hs.map Prod.fst).toFinset, Spec.InBundle g.r b p).map fl.sample ∧
      ((t.content c i).getD Occ.new).free = ((st.content c i).getD Occ.new).free + (if all then
        ∑ b ∈ Spec.hitBundles g k s, ((Spec.rayOf g k s b).filter fun x => decide (Spec.ValidBundle k x ∧ Spec.BundleInCell g.r x c i ∧
          (true = true → x ∉ Spec.hitBundles g k s))).length • fl.amount ((Spec.hitsIn g k s b).map fl.sample) else 0) := by
  have hkeys : (occCollect fl g ((k.init (Occ W E)).abs.valid k.dyn) s.pose s.cloud).map Prod.fst =
      (collect g ((k.init (Occ W E)).abs.valid k.dyn) s.pose (s.cloud.filter fun p => g.normal p)).map Prod.fst := by
    unfold occCollect; rw [List.map_map]; rfl
  have hnd : (hs.map Prod.fst).Nodup := ((hsub.map Prod.fst).nodup (by rw [hkeys]; exact collect_nodup ..))
  have hval : ∀ e ∈ hs, e.2 = ((Spec.hits g k s).filter fun p => toBundleIndex g.r p = e.1).map fl.sample := by
    intro e he
    obtain ⟨x, hx, rfl⟩ := List.mem_map.1 (hsub.subset he)
    simp only
    rw [collect_value g _ s.pose _ x hx]
    refine congrArg _ ?_
    unfold Spec.hits
    rw [← accList_eq (Occ W E) g hr k, Multiset.filter_coe]
  have hsum : ∀ c i, ((hs.filter fun e => decide (generateIndex e.1 c = i)).map Prod.snd).sum =
      ((Spec.hits g k s).filter fun p => Spec.InCell g.r c i p ∧ ∃ b ∈ (hs.map Prod.fst).toFinset, Spec.InBundle g.r b p).map fl.sample := by
    intro c i
    rw [sum_groups (Spec.hits g k s) (toBundleIndex g.r) fl.sample (fun b => decide (generateIndex b c = i)) hs hnd hval]
    refine congrArg _ (Multiset.filter_congr fun p _ => ?_)
    rw [decide_eq_true_iff, C01_point_in_selected_cell hr p c i]
    refine and_congr Iff.rfl ?_
    simp only [List.mem_toFinset]
    constructor
    · intro hm; exact ⟨_, hm, (C01_bundle_contains_point hr p _).1 rfl⟩
    · rintro ⟨b, hb, hp⟩
      rw [(C01_bundle_contains_point hr p b).2 hp]; exact hb
  intro c hc i
  cases all with
  | false =>
    rw [if_neg (by simp), List.append_nil] at hcase
    have h3 := (occAdd_spec k.lawful k.dyn _ st t hI hcase).2.2.1 c hc i
    constructor
    · refine (congrArg Occ.samples (show _ = t.abs.val c i from rfl)).trans ?_
      rw [h3, Occ.samples_add, hits_samples hs (fun b => decide (generateIndex b c = i)), hsum]
      rfl
    · refine (congrArg Occ.free (show _ = t.abs.val c i from rfl)).trans ?_
      rw [h3, Occ.add_free, hits_free hs (fun b => decide (generateIndex b c = i))]
      rfl
  | true =>
    rw [if_pos rfl] at hcase
    have h3 := (occAdd_spec k.lawful k.dyn _ st t hI hcase).2.2.1 c hc i
    rw [List.filter_append, List.map_append, List.sum_append] at h3
    constructor
    · refine (congrArg Occ.samples (show _ = t.abs.val c i from rfl)).trans ?_
      rw [h3, Occ.samples_add, Occ.samples_add, hits_samples hs (fun b => decide (generateIndex b c = i)), hsum,
        misses_samples _ (fun b => decide (generateIndex b c = i)), add_zero]
      rfl
    · refine (congrArg Occ.free (show _ = t.abs.val c i from rfl)).trans ?_
      rw [h3, Occ.add_free, Occ.add_free, hits_free hs (fun b => decide (generateIndex b c = i)), zero_add,
        insertFree_free fl g _ s (fun b => decide (generateIndex b c = i))]
      refine congrArg₂ (· + ·) rfl ?_
      exact insertEffects_misses { fl with eraseHits := true } hmean g hr k s c i

open scoped Classical in
theorem visible_outcome (fl : Flavour K d W E) (hmean : ∀ s : Multiset (Pt K d), fl.mean (s.map fl.sample) = Spec.meanOf s) (k : Kind d) (g : Geo K d) (hr : 0 < g.r)
    (defRay : Pt K d → Pt K d → List (Idx d)) (exp : Occ W E → Bool) (st t : St k.backend (Occ W E)) (hst : OccReachable fl k g defRay exp st) (s : Scan K d W)
    (occ : Occ W E → K) (vm : VisModel K) (h : occInsertVisible fl g k.dyn defRay s (some occ) (some vm) st = some t) :
    ∃ S ⊆ Spec.hitBundles g k s, ∃ all : Bool, ∀ c, c < 2 ^ d → ∀ i,
      ((t.content c i).getD Occ.new).samples = ((st.content c i).getD Occ.new).samples +
        ((Spec.hits g k s).filter fun p => Spec.InCell g.r c i p ∧ ∃ b ∈ S, Spec.InBundle g.r b p).map fl.sample ∧
      ((t.content c i).getD Occ.new).free = ((st.content c i).getD Occ.new).free + (if all then
        ∑ b ∈ Spec.hitBundles g k s, ((Spec.rayOf g k s b).filter fun x => decide (Spec.ValidBundle k x ∧ Spec.BundleInCell g.r x c i ∧
          (true = true → x ∉ Spec.hitBundles g k s))).length • fl.amount ((Spec.hitsIn g k s b).map fl.sample) else 0) := by
  have hI := hst.rinv
  have hv : st.valid k.dyn = (k.init (Occ W E)).abs.valid k.dyn := funext hst.keeps.valid
  obtain ⟨hs, hsub, hcase⟩ := occInsertVisible_spec k.lawful fl g k.dyn defRay s occ vm st t hI h
  rw [hv] at hsub hcase
  have hkeys : (occCollect fl g ((k.init (Occ W E)).abs.valid k.dyn) s.pose s.cloud).map Prod.fst =
      (collect g ((k.init (Occ W E)).abs.valid k.dyn) s.pose (s.cloud.filter fun p => g.normal p)).map Prod.fst := by
    unfold occCollect; rw [List.map_map]; rfl
  refine ⟨(hs.map Prod.fst).toFinset, ?_, ?_⟩
  · intro b hb
    rw [mem_hitBundles (Occ W E) g hr, ← hkeys]
    exact (hsub.map Prod.fst).subset (List.mem_toFinset.1 hb)
  rcases hcase with hcase | hcase
  · exact ⟨false, visible_contents fl hmean k g hr st t hI s hs hsub false (by rw [if_neg (by simp), List.append_nil]; exact hcase)⟩
  · exact ⟨true, visible_contents fl hmean k g hr st t hI s hs hsub true hcase⟩

end generic

/-! ### C29 -/

open scoped Classical in
/-- **C29** (partial, occupancy maps). What holds of `insertVisible` with models on every reachable map: there is a set `S` of hit bundles such that exactly the hits in these
bundles are added, each bundle completely, and the free updates are applied for all rays of the scan or for none; a hit bundle gets no free update (C28). Missing: the updates of a ray
do not depend on the other rays, which is false (`C29_independent_rays_refuted`). -/
theorem C29_occupancy_outcome_partial (k : Kind d) (g : Geo K d) (hr : 0 < g.r) (defRay : Pt K d → Pt K d → List (Idx d)) (exp : Occ Nat (Pt K d) → Bool)
    (st t : St k.backend (Occ Nat (Pt K d))) (hst : OccReachable (occFlavour K d) k g defRay exp st) (s : Scan K d Nat) (occ : Occ Nat (Pt K d) → K) (vm : VisModel K)
    (h : occInsertVisible (occFlavour K d) g k.dyn defRay s (some occ) (some vm) st = some t) :
    ∃ S ⊆ Spec.hitBundles g k s, ∃ all : Bool, ∀ c, c < 2 ^ d → ∀ i,
      ((t.content c i).getD Occ.new).samples = ((st.content c i).getD Occ.new).samples +
        ((Spec.hits g k s).filter fun p => Spec.InCell g.r c i p ∧ ∃ b ∈ S, Spec.InBundle g.r b p) ∧
      ((t.content c i).getD Occ.new).numFree = ((st.content c i).getD Occ.new).numFree + (if all then Spec.misses true g k s c i else 0) := by
  obtain ⟨S, hS, all, hh⟩ := visible_outcome (occFlavour K d) occFlavour_mean k g hr defRay exp st t hst s occ vm h
  refine ⟨S, hS, all, fun c hc i => ?_⟩
  obtain ⟨h1, h2⟩ := hh c hc i
  rw [show (occFlavour K d).sample = id from rfl, Multiset.map_id] at h1
  refine ⟨h1, ?_⟩
  unfold Occ.numFree
  rw [h2]
  refine congrArg₂ (· + ·) rfl ?_
  unfold Spec.misses
  cases all
  · rfl
  · simp only [if_true]
    refine Finset.sum_congr rfl fun b _ => ?_
    rw [smul_eq_mul, show (occFlavour K d).sample = id from rfl, Multiset.map_id]
    rfl

open scoped Classical in
/-- **C29** (partial, weighted maps): as `C29_occupancy_outcome_partial`; every point has weight 1. -/
theorem C29_weighted_outcome_partial (k : Kind d) (g : Geo K d) (hr : 0 < g.r) (defRay : Pt K d → Pt K d → List (Idx d)) (exp : Occ K (Pt K d × K) → Bool)
    (st t : St k.backend (Occ K (Pt K d × K))) (hst : OccReachable (weightedFlavour K d) k g defRay exp st) (s : Scan K d K) (occ : Occ K (Pt K d × K) → K) (vm : VisModel K)
    (h : occInsertVisible (weightedFlavour K d) g k.dyn defRay s (some occ) (some vm) st = some t) :
    ∃ S ⊆ Spec.hitBundles g k s, ∃ all : Bool, ∀ c, c < 2 ^ d → ∀ i,
      ((t.content c i).getD Occ.new).samples = ((st.content c i).getD Occ.new).samples +
        ((Spec.hits g k s).filter fun p => Spec.InCell g.r c i p ∧ ∃ b ∈ S, Spec.InBundle g.r b p).map (fun p => (p, 1)) ∧
      ((t.content c i).getD Occ.new).numFree = ((st.content c i).getD Occ.new).numFree + ((if all then Spec.misses true g k s c i else 0 : Nat) : K) := by
  obtain ⟨S, hS, all, hh⟩ := visible_outcome (weightedFlavour K d) weightedFlavour_mean k g hr defRay exp st t hst s occ vm h
  refine ⟨S, hS, all, fun c hc i => ?_⟩
  obtain ⟨h1, h2⟩ := hh c hc i
  refine ⟨h1, ?_⟩
  unfold Occ.numFree
  rw [h2]
  refine congrArg₂ (· + ·) rfl ?_
  unfold Spec.misses
  cases all
  · simp
  · simp only [if_true]
    rw [Nat.cast_sum]
    refine Finset.sum_congr rfl fun b _ => ?_
    rw [weightedFlavour_amount, nsmul_eq_mul, Nat.cast_mul]

/-! ### C28 -/

omit [IsStrictOrderedRing K] in
open scoped Classical in
theorem misses_zero {W : Type} (k : Kind d) (g : Geo K d) (s : Scan K d W) (c : Nat) (i : Idx d)
    (hall : ∀ b ∈ Spec.hitBundles g k s, ∀ x ∈ Spec.rayOf g k s b, Spec.BundleInCell g.r x c i → x ∈ Spec.hitBundles g k s) :
    Spec.misses true g k s c i = 0 := by
  unfold Spec.misses
  refine Finset.sum_eq_zero fun b hb => ?_
  rw [List.filter_eq_nil_iff.2]
  · simp
  · intro x hx
    rw [decide_eq_true_iff]
    rintro ⟨_, h2, h3⟩
    exact h3 rfl (hall b hb x hx h2)

/-- **C28** (`insertVisible` with models, occupancy maps). If all cells of rays of the scan that lie in a cell are themselves hit bundles, the cell gets no free update. -/
theorem C28_occupancy_visible_hit_not_free (k : Kind d) (g : Geo K d) (hr : 0 < g.r) (defRay : Pt K d → Pt K d → List (Idx d)) (exp : Occ Nat (Pt K d) → Bool)
    (st t : St k.backend (Occ Nat (Pt K d))) (hst : OccReachable (occFlavour K d) k g defRay exp st) (s : Scan K d Nat) (occ : Occ Nat (Pt K d) → K) (vm : VisModel K)
    (h : occInsertVisible (occFlavour K d) g k.dyn defRay s (some occ) (some vm) st = some t) (c : Nat) (hc : c < 2 ^ d) (i : Idx d)
    (hall : ∀ b ∈ Spec.hitBundles g k s, ∀ x ∈ Spec.rayOf g k s b, Spec.BundleInCell g.r x c i → x ∈ Spec.hitBundles g k s) :
    ((t.content c i).getD Occ.new).numFree = ((st.content c i).getD Occ.new).numFree := by
  obtain ⟨S, _, all, hh⟩ := C29_occupancy_outcome_partial k g hr defRay exp st t hst s occ vm h
  rw [(hh c hc i).2, misses_zero k g s c i hall]
  cases all <;> rfl

/-- **C28** (`insertVisible` with models, weighted maps). -/
theorem C28_weighted_visible_hit_not_free (k : Kind d) (g : Geo K d) (hr : 0 < g.r) (defRay : Pt K d → Pt K d → List (Idx d)) (exp : Occ K (Pt K d × K) → Bool)
    (st t : St k.backend (Occ K (Pt K d × K))) (hst : OccReachable (weightedFlavour K d) k g defRay exp st) (s : Scan K d K) (occ : Occ K (Pt K d × K) → K) (vm : VisModel K)
    (h : occInsertVisible (weightedFlavour K d) g k.dyn defRay s (some occ) (some vm) st = some t) (c : Nat) (hc : c < 2 ^ d) (i : Idx d)
    (hall : ∀ b ∈ Spec.hitBundles g k s, ∀ x ∈ Spec.rayOf g k s b, Spec.BundleInCell g.r x c i → x ∈ Spec.hitBundles g k s) :
    ((t.content c i).getD Occ.new).numFree = ((st.content c i).getD Occ.new).numFree := by
  obtain ⟨S, _, all, hh⟩ := C29_weighted_outcome_partial k g hr defRay exp st t hst s occ vm h
  rw [(hh c hc i).2, misses_zero k g s c i hall]
  cases all <;> simp

/-! ### C29, unoccluded scans -/

theorem collect_hyp {W E : Type} [AddCommMonoid W] (fl : Flavour K d W E) (hmean : ∀ s : Multiset (Pt K d), fl.mean (s.map fl.sample) = Spec.meanOf s) (k : Kind d) (g : Geo K d)
    (hr : 0 < g.r) (s : Scan K d W) (P : Nat → Prop) (h : ∀ b ∈ Spec.hitBundles g k s, P (Spec.rayOf g k s b).length) :
    ∀ e ∈ occCollect fl g ((k.init (Occ W E)).abs.valid k.dyn) s.pose s.cloud, P (s.ray (rayStart g s.pose) (fl.mean e.2)).length := by
  intro e he
  obtain ⟨x, hx, rfl⟩ := List.mem_map.1 he
  have := h x.1 ((mem_hitBundles (Occ W E) g hr k s x.1).2 (List.mem_map.2 ⟨x, hx, rfl⟩))
  simp only
  rw [collect_value g _ s.pose _ x hx, hitsIn_eq (Occ W E) g hr k s x.1, hmean]
  exact this

open scoped Classical in
theorem visible_pass {W E : Type} [AddCommMonoid W] (fl : Flavour K d W E) (hmean : ∀ s : Multiset (Pt K d), fl.mean (s.map fl.sample) = Spec.meanOf s) (k : Kind d) (g : Geo K d)
    (hr : 0 < g.r) (defRay : Pt K d → Pt K d → List (Idx d)) (exp : Occ W E → Bool) (st t : St k.backend (Occ W E)) (hst : OccReachable fl k g defRay exp st) (s : Scan K d W)
    (occ : Occ W E → K) (ho : ∀ o, 0 ≤ occ o ∧ occ o ≤ 1) (vm : VisModel K) (hq0 : 0 ≤ min vm.probFree vm.probOcc) (hq1 : min vm.probFree vm.probOcc ≤ 1)
    (hshort : ∀ b ∈ Spec.hitBundles g k s, vm.probPrior ≤ min vm.probFree vm.probOcc ^ ((Spec.rayOf g k s b).length + 1))
    (h : occInsertVisible fl g k.dyn defRay s (some occ) (some vm) st = some t) (c : Nat) (hc : c < 2 ^ d) (i : Idx d) :
      ((t.content c i).getD Occ.new).samples = ((st.content c i).getD Occ.new).samples + ((Spec.hits g k s).filter (Spec.InCell g.r c i)).map fl.sample ∧
      ((t.content c i).getD Occ.new).free = ((st.content c i).getD Occ.new).free +
        ∑ b ∈ Spec.hitBundles g k s, ((Spec.rayOf g k s b).filter fun x => decide (Spec.ValidBundle k x ∧ Spec.BundleInCell g.r x c i ∧
          (true = true → x ∉ Spec.hitBundles g k s))).length • fl.amount ((Spec.hitsIn g k s b).map fl.sample) := by
  have hI := hst.rinv
  have hv : st.valid k.dyn = (k.init (Occ W E)).abs.valid k.dyn := funext hst.keeps.valid
  have hh := occInsertVisible_pass k.lawful k.dyn fl g defRay s occ ho vm hq0 hq1 st t hI (by
    rw [hv]
    exact collect_hyp fl hmean k g hr s (fun n => vm.probPrior ≤ min vm.probFree vm.probOcc ^ (n + 1)) hshort) h
  rw [occInsert_eq k.lawful _ g k.dyn s st hI, hv] at hh
  have h3 := (occAdd_spec k.lawful k.dyn _ st t hI hh).2.2.1 c hc i
  constructor
  · refine (congrArg Occ.samples (show _ = t.abs.val c i from rfl)).trans ?_
    rw [h3, Occ.samples_add, insertEffects_samples _ g _ s (fun b => decide (generateIndex b c = i))]
    refine congrArg₂ (· + ·) rfl (congrArg (Multiset.map fl.sample) ?_)
    unfold Spec.hits
    rw [← accList_eq (Occ W E) g hr k, Multiset.filter_coe]
    refine congrArg _ (List.filter_congr fun p _ => ?_)
    rw [Bool.eq_iff_iff, decide_eq_true_iff, decide_eq_true_iff]
    exact C01_point_in_selected_cell hr p c i
  · refine (congrArg Occ.free (show _ = t.abs.val c i from rfl)).trans ?_
    rw [h3, Occ.add_free]
    refine congrArg₂ (· + ·) rfl ?_
    exact insertEffects_misses { fl with eraseHits := true } hmean g hr k s c i

open scoped Classical in
/-- **C29** (partial, occupancy maps). If occupancies are probabilities and no ray is long enough to be occluded even by fully occupied cells, `insertVisible` records every hit and
every miss (hit bundles excepted), on every reachable map. -/
theorem C29_occupancy_short_rays_partial (k : Kind d) (g : Geo K d) (hr : 0 < g.r) (defRay : Pt K d → Pt K d → List (Idx d)) (exp : Occ Nat (Pt K d) → Bool)
    (st t : St k.backend (Occ Nat (Pt K d))) (hst : OccReachable (occFlavour K d) k g defRay exp st) (s : Scan K d Nat) (occ : Occ Nat (Pt K d) → K)
    (ho : ∀ o, 0 ≤ occ o ∧ occ o ≤ 1) (vm : VisModel K) (hq0 : 0 ≤ min vm.probFree vm.probOcc) (hq1 : min vm.probFree vm.probOcc ≤ 1)
    (hshort : ∀ b ∈ Spec.hitBundles g k s, vm.probPrior ≤ min vm.probFree vm.probOcc ^ ((Spec.rayOf g k s b).length + 1))
    (h : occInsertVisible (occFlavour K d) g k.dyn defRay s (some occ) (some vm) st = some t) (c : Nat) (hc : c < 2 ^ d) (i : Idx d) :
      ((t.content c i).getD Occ.new).samples = ((st.content c i).getD Occ.new).samples + (Spec.hits g k s).filter (Spec.InCell g.r c i) ∧
      ((t.content c i).getD Occ.new).numFree = ((st.content c i).getD Occ.new).numFree + Spec.misses true g k s c i := by
  obtain ⟨h1, h2⟩ := visible_pass (occFlavour K d) occFlavour_mean k g hr defRay exp st t hst s occ ho vm hq0 hq1 hshort h c hc i
  rw [show (occFlavour K d).sample = id from rfl, Multiset.map_id] at h1
  refine ⟨h1, ?_⟩
  unfold Occ.numFree
  rw [h2]
  refine congrArg₂ (· + ·) rfl ?_
  unfold Spec.misses
  refine Finset.sum_congr rfl fun b _ => ?_
  rw [smul_eq_mul, show (occFlavour K d).sample = id from rfl, Multiset.map_id]
  rfl

open scoped Classical in
/-- **C29** (partial, weighted maps): as `C29_occupancy_short_rays_partial`. -/
theorem C29_weighted_short_rays_partial (k : Kind d) (g : Geo K d) (hr : 0 < g.r) (defRay : Pt K d → Pt K d → List (Idx d)) (exp : Occ K (Pt K d × K) → Bool)
    (st t : St k.backend (Occ K (Pt K d × K))) (hst : OccReachable (weightedFlavour K d) k g defRay exp st) (s : Scan K d K) (occ : Occ K (Pt K d × K) → K)
    (ho : ∀ o, 0 ≤ occ o ∧ occ o ≤ 1) (vm : VisModel K) (hq0 : 0 ≤ min vm.probFree vm.probOcc) (hq1 : min vm.probFree vm.probOcc ≤ 1)
    (hshort : ∀ b ∈ Spec.hitBundles g k s, vm.probPrior ≤ min vm.probFree vm.probOcc ^ ((Spec.rayOf g k s b).length + 1))
    (h : occInsertVisible (weightedFlavour K d) g k.dyn defRay s (some occ) (some vm) st = some t) (c : Nat) (hc : c < 2 ^ d) (i : Idx d) :
      ((t.content c i).getD Occ.new).samples = ((st.content c i).getD Occ.new).samples + ((Spec.hits g k s).filter (Spec.InCell g.r c i)).map (fun p => (p, 1)) ∧
      ((t.content c i).getD Occ.new).numFree = ((st.content c i).getD Occ.new).numFree + (Spec.misses true g k s c i : K) := by
  obtain ⟨h1, h2⟩ := visible_pass (weightedFlavour K d) weightedFlavour_mean k g hr defRay exp st t hst s occ ho vm hq0 hq1 hshort h c hc i
  refine ⟨h1, ?_⟩
  unfold Occ.numFree
  rw [h2]
  refine congrArg₂ (· + ·) rfl ?_
  unfold Spec.misses
  rw [Nat.cast_sum]
  refine Finset.sum_congr rfl fun b _ => ?_
  rw [weightedFlavour_amount, nsmul_eq_mul, Nat.cast_mul]

/-! ### C30 -/

omit [IsStrictOrderedRing K] in
/-- **C30** (occupancy maps). `insertVisible` without an inverse model or without a visibility model is `insert` with the same arguments, in every state (including the failure to
complete). -/
theorem C30_occupancy_fallback {B : Backend d} (g : Geo K d) (dyn : Bool) (defRay : Pt K d → Pt K d → List (Idx d)) (s : Scan K d Nat)
    (occ : Option (Occ Nat (Pt K d) → K)) (vm : Option (VisModel K)) (hn : occ = none ∨ vm = none) (st : St B (Occ Nat (Pt K d))) :
    occInsertVisible (occFlavour K d) g dyn defRay s occ vm st = occInsert (occFlavour K d) g dyn s st := by
  rcases hn with rfl | rfl
  · rfl
  · cases occ <;> rfl

omit [IsStrictOrderedRing K] in
/-- **C30** (partial, weighted maps). `insertVisible` without models is `insert` with the default line iterator; it is `insert` with the same arguments if the caller used the default
line iterator. Missing: other line iterators, for which the property is false (`C30_weighted_refuted`). -/
theorem C30_weighted_fallback_partial {B : Backend d} (g : Geo K d) (dyn : Bool) (defRay : Pt K d → Pt K d → List (Idx d)) (s : Scan K d K)
    (occ : Option (Occ K (Pt K d × K) → K)) (vm : Option (VisModel K)) (hn : occ = none ∨ vm = none) (st : St B (Occ K (Pt K d × K))) :
    occInsertVisible (weightedFlavour K d) g dyn defRay s occ vm st = occInsert (weightedFlavour K d) g dyn { s with ray := defRay } st ∧
    (s.ray = defRay → occInsertVisible (weightedFlavour K d) g dyn defRay s occ vm st = occInsert (weightedFlavour K d) g dyn s st) := by
  have h1 : occInsertVisible (weightedFlavour K d) g dyn defRay s occ vm st = occInsert (weightedFlavour K d) g dyn { s with ray := defRay } st := by
    rcases hn with rfl | rfl
    · rfl
    · cases occ <;> rfl
  refine ⟨h1, ?_⟩
  rintro rfl
  exact h1

end

/-! ### Concrete scans -/

/-- bundle edge 1 -/
def unitGeo : Geo ℚ 2 := { r := 2, toMap := id, normal := fun _ => true }

def visKind : Kind 2 := .static ![6, 6] ![-5, -5]

/-- a ray along the x axis: all bundles from the origin to the bundle before the end point -/
def xRay (_ e : Pt ℚ 2) : List (Idx 2) :=
  if e 0 < 0 then (List.range ⌊-e 0⌋.toNat).map fun j => ![-(j : Int), 0] else (List.range ⌊e 0⌋.toNat).map fun j => ![(j : Int), 0]

/-- a point in bundle (1, 0), a point in bundle (2, 0), a point in bundle (-4, 0) -/
def pA : Pt ℚ 2 := ![3/2, 1/2]
def pB : Pt ℚ 2 := ![5/2, 1/2]
def pC : Pt ℚ 2 := ![-7/2, 1/2]

def visScan (W : Type) (cloud : List (Pt ℚ 2)) (ray : Pt ℚ 2 → Pt ℚ 2 → List (Idx 2)) : Scan ℚ 2 W :=
  { pose := id, cloud := cloud, ray := ray, order := id, order_perm := fun l => List.Perm.refl l }

open scoped Classical in
theorem visScan_hits (W : Type) (cloud : List (Pt ℚ 2)) (ray : Pt ℚ 2 → Pt ℚ 2 → List (Idx 2)) (h : ∀ p ∈ cloud, p = pA ∨ p = pB ∨ p = pC) :
    Spec.hits unitGeo visKind (visScan W cloud ray) = cloud := by
  unfold Spec.hits Spec.acceptedPoints
  rw [Multiset.filter_eq_self.2]
  · simp [visScan, unitGeo]
  · intro p hp
    have hp' : p ∈ cloud := by simpa [visScan, unitGeo] using hp
    intro a
    rcases h p hp' with rfl | rfl | rfl <;> fin_cases a <;> norm_num [unitGeo, pA, pB, pC]

theorem mem_visScan_hitBundles (W : Type) (cloud : List (Pt ℚ 2)) (ray : Pt ℚ 2 → Pt ℚ 2 → List (Idx 2)) (h : ∀ p ∈ cloud, p = pA ∨ p = pB ∨ p = pC) (b : Idx 2) :
    b ∈ Spec.hitBundles unitGeo visKind (visScan W cloud ray) ↔ ∃ p ∈ cloud, toBundleIndex 2 p = b := by
  unfold Spec.hitBundles
  rw [visScan_hits W cloud ray h, Multiset.mem_toFinset, Multiset.mem_map]
  simp only [Multiset.mem_coe, floor_bundle]
  rfl

theorem tb_pA : toBundleIndex 2 pA = ![1, 0] := by
  funext a; fin_cases a <;> norm_num [toBundleIndex, bundleResolutionInv, bundleResolution, pA]
theorem tb_pB : toBundleIndex 2 pB = ![2, 0] := by
  funext a; fin_cases a <;> norm_num [toBundleIndex, bundleResolutionInv, bundleResolution, pB]
theorem tb_pC : toBundleIndex 2 pC = ![-4, 0] := by
  funext a; fin_cases a <;> norm_num [toBundleIndex, bundleResolutionInv, bundleResolution, pC]

open scoped Classical in
theorem visScan_hitsIn (W : Type) (cloud : List (Pt ℚ 2)) (ray : Pt ℚ 2 → Pt ℚ 2 → List (Idx 2)) (h : ∀ p ∈ cloud, p = pA ∨ p = pB ∨ p = pC) (b : Idx 2) :
    Spec.hitsIn unitGeo visKind (visScan W cloud ray) b = ((cloud.filter fun p => decide (toBundleIndex 2 p = b) : List (Pt ℚ 2)) : Multiset (Pt ℚ 2)) := by
  unfold Spec.hitsIn
  rw [visScan_hits W cloud ray h, Multiset.filter_coe]
  refine congrArg _ (List.filter_congr fun p _ => ?_)
  rw [Bool.eq_iff_iff, decide_eq_true_iff, decide_eq_true_iff]
  exact (C01_bundle_contains_point (by norm_num : (0:ℚ) < 2) p b).symm

theorem meanOf_single (p : Pt ℚ 2) : Spec.meanOf ({p} : Multiset (Pt ℚ 2)) = p := by
  funext a; simp [Spec.meanOf]

theorem xRay_pA (s : Pt ℚ 2) : xRay s pA = [![0, 0]] := by
  have : (⌊pA 0⌋ : Int) = 1 := by norm_num [pA]
  rw [xRay, if_neg (by norm_num [pA]), this]; rfl
theorem xRay_pB (s : Pt ℚ 2) : xRay s pB = [![0, 0], ![1, 0]] := by
  have : (⌊pB 0⌋ : Int) = 2 := by norm_num [pB]
  rw [xRay, if_neg (by norm_num [pB]), this]; rfl
theorem xRay_pC (s : Pt ℚ 2) : xRay s pC = [![0, 0], ![-1, 0], ![-2, 0]] := by
  have : (⌊-pC 0⌋ : Int) = 3 := by norm_num [pC]
  rw [xRay, if_pos (by norm_num [pC]), this]; rfl

/-! ### C28 refuted for `insert` of the occupancy map -/

open scoped Classical in
/-- **C28 refuted** for `OccupancyGridmap::insert`: a scan with hits in the bundles (1,0) and (2,0). All cells of rays inside of the map cell `(1,0)` of grid 1 (which consists of the
bundle columns 1 and 2) are hit bundles of this scan, but the cell gets a free update. -/
theorem C28_occupancy_insert_refuted : ∃ (k : Kind 2) (g : Geo ℚ 2) (s : Scan ℚ 2 Nat) (t : St k.backend (Occ Nat (Pt ℚ 2))) (c : Nat) (i : Idx 2),
    0 < g.r ∧ c < 2 ^ 2 ∧ occInsert (occFlavour ℚ 2) g k.dyn s (k.init _) = some t ∧
    (∀ b ∈ Spec.hitBundles g k s, ∀ x ∈ Spec.rayOf g k s b, Spec.BundleInCell g.r x c i → x ∈ Spec.hitBundles g k s) ∧
    0 < ((t.content c i).getD Occ.new).numFree := by
  have hcl : ∀ p ∈ [pA, pB], p = pA ∨ p = pB ∨ p = pC := by simp
  have hm := mem_visScan_hitBundles Nat [pA, pB] xRay hcl
  have hm' : ∀ b, b ∈ Spec.hitBundles unitGeo visKind (visScan Nat [pA, pB] xRay) ↔ b = ![1, 0] ∨ b = ![2, 0] := by
    intro b; rw [hm]; simp [tb_pA, tb_pB, eq_comm]
  have hrA : Spec.rayOf unitGeo visKind (visScan Nat [pA, pB] xRay) ![1, 0] = [![0, 0]] := by
    unfold Spec.rayOf
    rw [visScan_hitsIn Nat _ _ hcl]
    have : ([pA, pB].filter fun p => decide (toBundleIndex 2 p = ![1, 0])) = [pA] := by
      rw [List.filter_cons, if_pos (by rw [tb_pA]; decide), List.filter_cons, if_neg (by rw [tb_pB]; decide)]; rfl
    rw [this, show (([pA] : List (Pt ℚ 2)) : Multiset (Pt ℚ 2)) = {pA} from rfl, meanOf_single]
    exact xRay_pA 0
  have hhB : Spec.hitsIn unitGeo visKind (visScan Nat [pA, pB] xRay) ![2, 0] = {pB} := by
    rw [visScan_hitsIn Nat _ _ hcl]
    have : ([pA, pB].filter fun p => decide (toBundleIndex 2 p = ![2, 0])) = [pB] := by
      rw [List.filter_cons, if_neg (by rw [tb_pA]; decide), List.filter_cons, if_pos (by rw [tb_pB]; decide)]; rfl
    rw [this]; rfl
  have hrB : Spec.rayOf unitGeo visKind (visScan Nat [pA, pB] xRay) ![2, 0] = [![0, 0], ![1, 0]] := by
    unfold Spec.rayOf
    rw [hhB, meanOf_single]
    exact xRay_pB 0
  have h2 : (0:ℚ) < unitGeo.r := by norm_num [unitGeo]
  obtain ⟨t, ht⟩ := occInsert_total visKind.lawful (occFlavour ℚ 2) unitGeo visKind.dyn (visScan Nat [pA, pB] xRay) (visKind.init _) visKind.init_rinv
    (fun i h => Kind.static_good _ _ i h)
  refine ⟨visKind, unitGeo, visScan Nat [pA, pB] xRay, t, 1, ![1, 0], h2, by norm_num, ht, ?_, ?_⟩
  · intro b hb x hx hcell
    rw [bundleInCell_iff h2] at hcell
    rcases (hm' b).1 hb with rfl | rfl
    · rw [hrA] at hx
      rw [List.mem_singleton.1 hx] at hcell
      exact absurd hcell (by decide)
    · rw [hrB] at hx
      rcases List.mem_cons.1 hx with rfl | hx
      · exact absurd hcell (by decide)
      · rw [List.mem_singleton.1 hx]; exact (hm' _).2 (Or.inl rfl)
  · have hrun : occRun (occFlavour ℚ 2) unitGeo visKind.dyn xRay (fun _ => true) [.insert (visScan Nat [pA, pB] xRay)] (visKind.init _) = some t := by
      simp only [occRun, occStep, ht, Option.bind_some]
    rw [(C27_occupancy_counts visKind unitGeo h2 xRay (fun _ => true) _ (by simp [OccMapOp.Plain]) t hrun 1 (by norm_num) ![1, 0]).1]
    simp only [scansOf, List.map_cons, List.map_nil, List.sum_cons, List.sum_nil, add_zero]
    unfold Spec.misses
    refine lt_of_lt_of_le ?_ (Finset.single_le_sum (fun _ _ => Nat.zero_le _) ((hm' ![2, 0]).2 (Or.inr rfl)))
    rw [hrB, hhB]
    refine Nat.mul_pos (List.length_pos_of_mem (a := ![1, 0]) ?_) (by simp)
    rw [List.mem_filter, decide_eq_true_iff]
    refine ⟨by simp, ?_, ?_, by simp⟩
    · intro a; fin_cases a <;> decide
    · rw [bundleInCell_iff h2]; decide

/-! ### C30 refuted for weighted maps -/

open scoped Classical in
/-- **C30 refuted** for `WeightedOccupancyGridmap`: a scan with one hit, a caller-supplied ray tracer and no models. `insert` records a miss in the cell `(0,0)` of grid 0,
`insertVisible` (with the class's default ray tracer, here one that visits no cell) does not. -/
theorem C30_weighted_refuted : ∃ (k : Kind 2) (g : Geo ℚ 2) (defRay : Pt ℚ 2 → Pt ℚ 2 → List (Idx 2)) (s : Scan ℚ 2 ℚ) (t t' : St k.backend (Occ ℚ (Pt ℚ 2 × ℚ))),
    occInsert (weightedFlavour ℚ 2) g k.dyn s (k.init _) = some t ∧
    occInsertVisible (weightedFlavour ℚ 2) g k.dyn defRay s none none (k.init _) = some t' ∧
    ((t.content 0 ![0, 0]).getD Occ.new).numFree ≠ ((t'.content 0 ![0, 0]).getD Occ.new).numFree := by
  have hcl : ∀ p ∈ [pA], p = pA ∨ p = pB ∨ p = pC := by simp
  have h2 : (0:ℚ) < unitGeo.r := by norm_num [unitGeo]
  have tot := fun s => occInsert_total visKind.lawful (weightedFlavour ℚ 2) unitGeo visKind.dyn s (visKind.init _) visKind.init_rinv
    (fun i h => Kind.static_good _ _ i h)
  obtain ⟨t, ht⟩ := tot (visScan ℚ [pA] xRay)
  obtain ⟨t', ht'⟩ := tot (visScan ℚ [pA] fun _ _ => [])
  refine ⟨visKind, unitGeo, fun _ _ => [], visScan ℚ [pA] xRay, t, t', ht, ht', ?_⟩
  have e0 := (C28_weighted_hit_not_free visKind unitGeo h2 xRay (fun _ => true) _ ⟨[], rfl⟩ _ t ht 0 (by norm_num) ![0, 0]).1
  have e1 := (C28_weighted_hit_not_free visKind unitGeo h2 xRay (fun _ => true) _ ⟨[], rfl⟩ _ t' ht' 0 (by norm_num) ![0, 0]).1
  rw [e0, e1]
  have hm : ∀ ray b, b ∈ Spec.hitBundles unitGeo visKind (visScan ℚ [pA] ray) ↔ b = ![1, 0] := by
    intro ray b; rw [mem_visScan_hitBundles ℚ [pA] ray hcl]; simp [tb_pA, eq_comm]
  have hh : ∀ ray, Spec.hitsIn unitGeo visKind (visScan ℚ [pA] ray) ![1, 0] = {pA} := by
    intro ray
    rw [visScan_hitsIn ℚ _ _ hcl]
    have : ([pA].filter fun p => decide (toBundleIndex 2 p = ![1, 0])) = [pA] := by
      rw [List.filter_cons, if_pos (by rw [tb_pA]; decide)]; rfl
    rw [this]; rfl
  have m1 : 0 < Spec.misses true unitGeo visKind (visScan ℚ [pA] xRay) 0 ![0, 0] := by
    unfold Spec.misses
    refine lt_of_lt_of_le ?_ (Finset.single_le_sum (fun _ _ => Nat.zero_le _) ((hm xRay ![1, 0]).2 rfl))
    have hr : Spec.rayOf unitGeo visKind (visScan ℚ [pA] xRay) ![1, 0] = [![0, 0]] := by
      unfold Spec.rayOf
      rw [hh, meanOf_single]
      exact xRay_pA 0
    rw [hr, hh]
    refine Nat.mul_pos (List.length_pos_of_mem (a := ![0, 0]) ?_) (by simp)
    rw [List.mem_filter, decide_eq_true_iff]
    refine ⟨by simp, ?_, ?_, ?_⟩
    · intro a; fin_cases a <;> decide
    · rw [bundleInCell_iff h2]; decide
    · intro _ h; exact absurd ((hm _ _).1 h) (by decide)
  have m2 : Spec.misses true unitGeo visKind (visScan ℚ [pA] fun _ _ => []) 0 ![0, 0] = 0 := by
    unfold Spec.misses Spec.rayOf
    refine Finset.sum_eq_zero fun b _ => ?_
    simp [visScan]
  rw [m2]
  intro h
  have h' := add_left_cancel h
  rw [Nat.cast_inj] at h'
  omega

/-! ### C29 refuted -/

/-- a cell is visible with probability 1/4 behind an occupied cell and 3/4 behind a free or unknown cell -/
def visVm : VisModel ℚ := { probPrior := 1/2, probFree := 1/4, probOcc := 3/4 }

/-- on an empty map every cell in the interior is seen with `probOcc` -/
theorem empty_visibility {D : Type} [Inhabited D] (occ : D → ℚ) (startBi bi : Idx 2)
    (hv : ∀ c : Fin 2, (visKind.init D).valid visKind.dyn (occlusionIndex startBi bi c) = true) :
    currentVisibility visKind.dyn occ visVm startBi bi (visKind.init D) = some (3/4) := by
  have hb : ∀ c : Fin 2, bundleOccupancy visKind.dyn occ (occlusionIndex startBi bi c) (visKind.init D) = some 0 := by
    intro c
    refine (bundleOccupancy_spec visKind.lawful visKind.dyn occ _ (visKind.init D) visKind.init_rinv ?_ (hv c)).2 ?_
    · exact (Kind.static_good (D := D) _ _ _ (hv c)).1
    · rw [Kind.init_allocated]; exact Set.notMem_empty _
  have hl : List.finRange 2 = [0, 1] := by decide
  unfold currentVisibility
  rw [hl]
  simp only [occlusionProb, hv, hb, if_true, Option.map_some]
  norm_num [visVm]

theorem visKind_valid (D : Type) [Inhabited D] (b : Idx 2) (h : ∀ a, -5 ≤ b a ∧ b a < 6) : (visKind.init D).valid visKind.dyn b = true := by
  refine (validBundle_iff D visKind b).2 ?_
  intro a
  have := h a
  fin_cases a <;> simpa using this

section
variable {W E : Type} [AddCommMonoid W]

theorem visCollect (fl : Flavour ℚ 2 W E) (cloud : List (Pt ℚ 2)) (ray : Pt ℚ 2 → Pt ℚ 2 → List (Idx 2)) :
    occCollect fl unitGeo ((visKind.init (Occ W E)).valid visKind.dyn) (visScan W cloud ray).pose (visScan W cloud ray).cloud =
      (collect unitGeo ((visKind.init (Occ W E)).valid visKind.dyn) id cloud).map fun e => (e.1, e.2.map fl.sample) := by
  unfold occCollect
  have : ((visScan W cloud ray).cloud.filter fun p => unitGeo.normal p) = cloud := by
    simp [visScan, unitGeo]
  rw [this]; rfl

theorem visCollect_near (D : Type) [Inhabited D] : collect unitGeo ((visKind.init D).valid visKind.dyn) id [pA] = [(![1, 0], {pA})] := by
  have h1 : (visKind.init D).valid visKind.dyn (toBundleIndex 2 pA) = true := visKind_valid D _ (by rw [tb_pA]; decide)
  have e1 : toBundleIndex unitGeo.r (unitGeo.toMap (id pA)) = ![1, 0] := tb_pA
  have h1' : (visKind.init D).valid visKind.dyn ![1, 0] = true := tb_pA ▸ h1
  simp only [collect, List.foldl_cons, List.foldl_nil, e1, h1', if_true]
  rfl

theorem visCollect_both (D : Type) [Inhabited D] : collect unitGeo ((visKind.init D).valid visKind.dyn) id [pA, pC] = [(![-4, 0], {pC}), (![1, 0], {pA})] := by
  have e1 : toBundleIndex unitGeo.r (unitGeo.toMap (id pA)) = ![1, 0] := tb_pA
  have e2 : toBundleIndex unitGeo.r (unitGeo.toMap (id pC)) = ![-4, 0] := tb_pC
  have h1' : (visKind.init D).valid visKind.dyn ![1, 0] = true := visKind_valid D _ (by decide)
  have h2' : (visKind.init D).valid visKind.dyn ![-4, 0] = true := visKind_valid D _ (by decide)
  simp only [collect, List.foldl_cons, List.foldl_nil, e1, e2, h1', h2', if_true]
  rfl

theorem vis_near (fl : Flavour ℚ 2 W E) (hmean : ∀ s : Multiset (Pt ℚ 2), fl.mean (s.map fl.sample) = Spec.meanOf s) (defRay : Pt ℚ 2 → Pt ℚ 2 → List (Idx 2))
    (occ : Occ W E → ℚ) (t : St visKind.backend (Occ W E))
    (h : occInsertVisible fl unitGeo visKind.dyn defRay (visScan W [pA] xRay) (some occ) (some visVm) (visKind.init _) = some t) :
    ((t.content 0 ![0, 0]).getD Occ.new).samples = {fl.sample pA} := by
  have hm : fl.mean (({pA} : Multiset (Pt ℚ 2)).map fl.sample) = pA := by rw [hmean, meanOf_single]
  have hs : toBundleIndex unitGeo.r (rayStart unitGeo (visScan W [pA] xRay).pose) = ![0, 0] := by
    funext a; fin_cases a <;> norm_num [toBundleIndex, bundleResolutionInv, bundleResolution, rayStart, unitGeo, visScan]
  have hv0 := empty_visibility occ ![0, 0] ![0, 0] (fun c => visKind_valid _ _ (by fin_cases c <;> decide))
  have hv1 := empty_visibility occ ![0, 0] ![1, 0] (fun c => visKind_valid _ _ (by fin_cases c <;> decide))
  have hray : (visScan W [pA] xRay).ray (rayStart unitGeo (visScan W [pA] xRay).pose) pA = [![0, 0]] := xRay_pA 0
  simp only [occInsertVisible] at h
  rw [visCollect, visCollect_near, hs] at h
  simp only [List.map_cons, List.map_nil, visHits, hm, hray, visRay, hv0, hv1] at h
  rw [if_neg (by norm_num [visVm])] at h
  simp only at h
  rw [if_pos (by norm_num [visVm])] at h
  have hup := update_hit_eq (W := W) (B := visKind.backend) visKind.dyn (![1, 0], ({pA} : Multiset (Pt ℚ 2)).map fl.sample) (visKind.init (Occ W E))
  simp only at hup
  rw [hup] at h
  cases hu : occAdd visKind.dyn [hitOf (![1, 0], ({pA} : Multiset (Pt ℚ 2)).map fl.sample)] (visKind.init (Occ W E)) with
  | none => rw [hu] at h; cases h
  | some st1 =>
    rw [hu] at h
    simp only [occFree_eq] at h
    obtain ⟨a1, _, a3, _⟩ := occAdd_spec visKind.lawful visKind.dyn _ _ st1 visKind.init_rinv hu
    obtain ⟨b1, _, b3, _⟩ := occAdd_spec visKind.lawful visKind.dyn _ st1 t a1 h
    refine (congrArg Occ.samples (show _ = t.abs.val 0 ![0, 0] from rfl)).trans ?_
    rw [b3 0 (by norm_num) ![0, 0], Occ.samples_add, misses_samples _ (fun b => decide (generateIndex b 0 = ![0, 0])), a3 0 (by norm_num) ![0, 0], add_zero, Occ.samples_add]
    have e0 : (visKind.init (Occ W E)).abs.val 0 ![0, 0] = 0 := by unfold Abs.val; rw [Kind.init_content]; rfl
    rw [e0, show Occ.samples (0 : Occ W E) = 0 from rfl, zero_add]
    refine (hits_samples [(![1, 0], ({pA} : Multiset (Pt ℚ 2)).map fl.sample)] (fun b => decide (generateIndex b 0 = ![0, 0]))).trans ?_
    have hg : generateIndex (![1, 0] : Idx 2) 0 = ![0, 0] := by decide
    rw [List.filter_cons, if_pos (decide_eq_true hg)]
    simp

theorem vis_both (fl : Flavour ℚ 2 W E) (hmean : ∀ s : Multiset (Pt ℚ 2), fl.mean (s.map fl.sample) = Spec.meanOf s) (defRay : Pt ℚ 2 → Pt ℚ 2 → List (Idx 2))
    (occ : Occ W E → ℚ) (t : St visKind.backend (Occ W E))
    (h : occInsertVisible fl unitGeo visKind.dyn defRay (visScan W [pA, pC] xRay) (some occ) (some visVm) (visKind.init _) = some t) :
    t = visKind.init _ := by
  have hm : fl.mean (({pC} : Multiset (Pt ℚ 2)).map fl.sample) = pC := by rw [hmean, meanOf_single]
  have hs : toBundleIndex unitGeo.r (rayStart unitGeo (visScan W [pA, pC] xRay).pose) = ![0, 0] := by
    funext a; fin_cases a <;> norm_num [toBundleIndex, bundleResolutionInv, bundleResolution, rayStart, unitGeo, visScan]
  have hv0 := empty_visibility occ ![0, 0] ![0, 0] (fun c => visKind_valid _ _ (by fin_cases c <;> decide))
  have hv1 := empty_visibility occ ![0, 0] ![-1, 0] (fun c => visKind_valid _ _ (by fin_cases c <;> decide))
  have hv2 := empty_visibility occ ![0, 0] ![-2, 0] (fun c => visKind_valid _ _ (by fin_cases c <;> decide))
  have hray : (visScan W [pA, pC] xRay).ray (rayStart unitGeo (visScan W [pA, pC] xRay).pose) pC = [![0, 0], ![-1, 0], ![-2, 0]] := xRay_pC 0
  simp only [occInsertVisible] at h
  rw [visCollect, visCollect_both, hs] at h
  simp only [List.map_cons, List.map_nil, visHits, hm, hray, visRay, hv0, hv1, hv2] at h
  rw [if_neg (by norm_num [visVm]), if_neg (by norm_num [visVm]), if_pos (by norm_num [visVm])] at h
  exact (Option.some.inj h).symm

end

/-- **C29 refuted** (both classes). On an empty map and with a visibility model, a scan with one near point records its hit. The same scan with an additional far point whose ray is
occluded leaves the map unchanged: the near hit and all misses are lost. -/
theorem C29_independent_rays_refuted : ∃ (k : Kind 2) (g : Geo ℚ 2) (vm : VisModel ℚ) (near far : Pt ℚ 2) (ray : Pt ℚ 2 → Pt ℚ 2 → List (Idx 2)),
    (∀ occ defRay, ∃ t t', occInsertVisible (occFlavour ℚ 2) g k.dyn defRay (visScan Nat [near] ray) (some occ) (some vm) (k.init _) = some t ∧
      occInsertVisible (occFlavour ℚ 2) g k.dyn defRay (visScan Nat [near, far] ray) (some occ) (some vm) (k.init _) = some t' ∧
      ((t.content 0 ![0, 0]).getD Occ.new).numOccupied = 1 ∧ t' = k.init _) ∧
    (∀ occ defRay, ∃ t t', occInsertVisible (weightedFlavour ℚ 2) g k.dyn defRay (visScan ℚ [near] ray) (some occ) (some vm) (k.init _) = some t ∧
      occInsertVisible (weightedFlavour ℚ 2) g k.dyn defRay (visScan ℚ [near, far] ray) (some occ) (some vm) (k.init _) = some t' ∧
      ((t.content 0 ![0, 0]).getD Occ.new).weightOccupied = 1 ∧ t' = k.init _) := by
  refine ⟨visKind, unitGeo, visVm, pA, pC, xRay, fun occ defRay => ?_, fun occ defRay => ?_⟩
  · obtain ⟨t, ht⟩ := occStep_total visKind.lawful (occFlavour ℚ 2) unitGeo visKind.dyn defRay (fun _ => true) (.insertVisible (visScan Nat [pA] xRay) (some occ) (some visVm))
      (visKind.init _) visKind.init_rinv (fun i h => Kind.static_good _ _ i h)
    obtain ⟨t', ht'⟩ := occStep_total visKind.lawful (occFlavour ℚ 2) unitGeo visKind.dyn defRay (fun _ => true) (.insertVisible (visScan Nat [pA, pC] xRay) (some occ) (some visVm))
      (visKind.init _) visKind.init_rinv (fun i h => Kind.static_good _ _ i h)
    refine ⟨t, t', ht, ht', ?_, vis_both _ occFlavour_mean defRay occ t' ht'⟩
    rw [Occ.numOccupied_eq, vis_near _ occFlavour_mean defRay occ t ht]; rfl
  · obtain ⟨t, ht⟩ := occStep_total visKind.lawful (weightedFlavour ℚ 2) unitGeo visKind.dyn defRay (fun _ => true) (.insertVisible (visScan ℚ [pA] xRay) (some occ) (some visVm))
      (visKind.init _) visKind.init_rinv (fun i h => Kind.static_good _ _ i h)
    obtain ⟨t', ht'⟩ := occStep_total visKind.lawful (weightedFlavour ℚ 2) unitGeo visKind.dyn defRay (fun _ => true) (.insertVisible (visScan ℚ [pA, pC] xRay) (some occ) (some visVm))
      (visKind.init _) visKind.init_rinv (fun i h => Kind.static_good _ _ i h)
    refine ⟨t, t', ht, ht', ?_, vis_both _ weightedFlavour_mean defRay occ t' ht'⟩
    have e : ∀ o : Occ ℚ (Pt ℚ 2 × ℚ), o.weightOccupied = (o.samples.map Prod.snd).sum := by
      intro o; unfold Occ.weightOccupied Occ.samples; cases o.data <;> simp
    rw [e, vis_near _ weightedFlavour_mean defRay occ t ht]
    simp [weightedFlavour]

/-! ### Non-vacuity -/

/-- the history with a scan, a lookup and another scan runs on the static map and its hits are counted -/
example : ∃ st, occRun (occFlavour ℚ 2) unitGeo visKind.dyn xRay (fun _ => true)
      [.insert (visScan Nat [pA, pB] xRay), .core (.bundleAt ![0, 0]), .insert (visScan Nat [pA, pC] xRay)] (visKind.init _) = some st ∧
    OccReachable (occFlavour ℚ 2) visKind unitGeo xRay (fun _ => true) st ∧
    ((st.content 0 ![0, 0]).getD Occ.new).numOccupied = 2 ∧ 0 < ((st.content 0 ![0, 0]).getD Occ.new).numOccupied := by
  obtain ⟨st, h⟩ := occRun_total visKind.lawful (occFlavour ℚ 2) unitGeo visKind.dyn xRay (fun _ => true)
    [.insert (visScan Nat [pA, pB] xRay), .core (.bundleAt ![0, 0]), .insert (visScan Nat [pA, pC] xRay)] (visKind.init _) visKind.init_rinv
    (fun i h => Kind.static_good _ _ i h)
  have e : ((st.content 0 ![0, 0]).getD Occ.new).numOccupied = 2 := by
    classical
    rw [(C27_occupancy_counts visKind unitGeo (by norm_num [unitGeo]) xRay (fun _ => true) _ (by simp [OccMapOp.Plain]) st h 0 (by norm_num) ![0, 0]).2.2]
    simp only [scansOf, List.map_cons, List.map_nil, List.sum_cons, List.sum_nil, add_zero]
    rw [visScan_hits _ _ _ (by simp), visScan_hits _ _ _ (by simp), Multiset.coe_add, Multiset.filter_coe]
    have hA : Spec.InCell unitGeo.r 0 ![0, 0] pA := by
      refine (C01_point_in_selected_cell (by norm_num [unitGeo]) pA 0 ![0, 0]).1 ?_
      rw [show toBundleIndex unitGeo.r pA = ![1, 0] from tb_pA]; decide
    have hB : ¬ Spec.InCell unitGeo.r 0 ![0, 0] pB := by
      rw [← C01_point_in_selected_cell (by norm_num [unitGeo]) pB 0 ![0, 0], show toBundleIndex unitGeo.r pB = ![2, 0] from tb_pB]; decide
    have hC : ¬ Spec.InCell unitGeo.r 0 ![0, 0] pC := by
      rw [← C01_point_in_selected_cell (by norm_num [unitGeo]) pC 0 ![0, 0], show toBundleIndex unitGeo.r pC = ![-4, 0] from tb_pC]; decide
    simp [hA, hB, hC]
  exact ⟨st, h, ⟨_, h⟩, e, by rw [e]; norm_num⟩

/-- the hypothesis of the short-ray theorems holds for the scan with the near point and a visibility model with high probabilities -/
example : ∀ b ∈ Spec.hitBundles unitGeo visKind (visScan Nat [pA] xRay),
    (1/2 : ℚ) ≤ min (4/5) (9/10) ^ ((Spec.rayOf unitGeo visKind (visScan Nat [pA] xRay) b).length + 1) := by
  intro b hb
  rw [mem_visScan_hitBundles Nat [pA] xRay (by simp)] at hb
  obtain ⟨p, hp, rfl⟩ := hb
  rw [List.mem_singleton.1 hp, tb_pA]
  have hr : Spec.rayOf unitGeo visKind (visScan Nat [pA] xRay) ![1, 0] = [![0, 0]] := by
    unfold Spec.rayOf
    rw [visScan_hitsIn Nat _ _ (by simp)]
    have : ([pA].filter fun p => decide (toBundleIndex 2 p = ![1, 0])) = [pA] := by
      rw [List.filter_cons, if_pos (by rw [tb_pA]; decide)]; rfl
    rw [this, show (([pA] : List (Pt ℚ 2)) : Multiset (Pt ℚ 2)) = {pA} from rfl, meanOf_single]
    exact xRay_pA 0
  rw [hr]
  norm_num

end Ndt
