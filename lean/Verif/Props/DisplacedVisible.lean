import Verif.Props.Displaced
import Verif.Props.ScanAllocates

/-!
Property theorems C92 for histories with visibility-aware insertions and allocations.
-/

namespace Ndt
open St Spec

section
variable {K : Type} [Field K] [LinearOrder K] [IsStrictOrderedRing K] [FloorRing K] {d : Nat}

/-! ### the verdicts of `insertVisible` -/

theorem before_moved (t : Idx d) {x y : Idx d} (h : Before x y) : Before (movedBundle t x) (movedBundle t y) := by
  obtain ⟨a, h1, h2⟩ := h
  exact ⟨a, fun a' ha => by unfold movedBundle; rw [h1 a' ha], by unfold movedBundle; omega⟩

theorem towards_moved (t s b : Idx d) (a : Fin d) : towards (movedBundle t s) (movedBundle t b) a = movedBundle t (towards s b a) := by
  funext j
  unfold towards movedBundle
  by_cases hj : j = a
  · subst hj
    simp only [if_true]
    by_cases h : s j < b j
    · rw [if_pos h, if_pos (by omega)]; omega
    · rw [if_neg h, if_neg (by omega)]; omega
  · simp only [if_neg hj]

theorem binCell_moved (t b : Idx d) (c : Nat) : binCell (movedBundle t b) (movedGrid t c) = movedCell t c (binCell b c) := by
  funext a
  unfold binCell movedCell movedBundle movedGrid
  rw [Nat.testBit_xor, (movedMask t).2 a]
  by_cases h1 : t a % 2 = 1
  · by_cases h2 : c.testBit a.1 = true
    · simp only [h1, h2]
      simp
      omega
    · have h2' := Bool.eq_false_iff.2 h2
      simp only [h1, h2']
      simp
      omega
  · by_cases h2 : c.testBit a.1 = true
    · simp only [h1, h2]
      simp
      omega
    · have h2' := Bool.eq_false_iff.2 h2
      simp only [h1, h2']
      simp
      omega

theorem floor_moved {r : K} (hr : 0 < r) (t : Idx d) (q : Pt K d) : (fun a => ⌊translate (displacement r t) q a / (r / 2)⌋) = movedBundle t (fun a => ⌊q a / (r / 2)⌋) := by
  funext a
  unfold translate displacement movedBundle
  have h2 : r / 2 ≠ 0 := by positivity
  rw [add_div, mul_div_cancel_left₀ _ h2, Int.floor_add_intCast]

variable {W E : Type} [AddCommMonoid W]

theorem hitsOn_moved {t : Idx d} {g g' : Geo K d} (hg : Displaced t g g') (k : Kind d) {s s' : Scan K d W} (h : DisplacedScan t g s s') (S : Finset (Idx d)) (c : Nat) (i : Idx d) :
    hitsOn g' (movedKind t k) s' (S.image (movedBundle t)) (movedGrid t c) (movedCell t c i) = (hitsOn g k s S c i).map (translate (displacement g.r t)) := by
  classical
  unfold hitsOn
  rw [hits_moved hg k h, Multiset.filter_map, hg.r]
  refine congrArg _ (Multiset.filter_congr fun p _ => and_congr (inCell_movedGrid t g.r c i p) ?_)
  constructor
  · rintro ⟨b, hb, hp⟩
    obtain ⟨b', hb', rfl⟩ := Finset.mem_image.1 hb
    exact ⟨b', hb', (inBundle_moved t g.r b' p).1 hp⟩
  · rintro ⟨b, hb, hp⟩
    exact ⟨_, Finset.mem_image.2 ⟨b, hb, rfl⟩, (inBundle_moved t g.r b p).2 hp⟩

omit [Field K] [LinearOrder K] [IsStrictOrderedRing K] [FloorRing K] [AddCommMonoid W] in
theorem withSamples_mapHits [AddCommMonoid W] (F : E → E) (m : Multiset E) (o : Occ W E) : withSamples (m.map F) (mapHits F o) = mapHits F (withSamples m o) := by
  unfold withSamples
  by_cases hm : m = 0
  · rw [if_pos (by rw [hm]; rfl), if_pos hm]
  · rw [if_neg (fun e => hm (Multiset.map_eq_zero.1 e)), if_neg hm]
    unfold mapHits Occ.samples
    cases o.data <;> simp

/-- Both maps have the same distributions and the same expansion flags at corresponding places. -/
structure MovedSt (F : E → E) (t : Idx d) (k : Kind d) (st : St k.backend (Occ W E)) (st' : St (movedKind t k).backend (Occ W E)) : Prop where
  vals : ∀ c < 2 ^ d, ∀ i, (st'.content (movedGrid t c) (movedCell t c i)).getD Occ.new = mapHits F ((st.content c i).getD Occ.new)
  flags : ∀ b, st'.abs.flags (movedBundle t b) = st.abs.flags b

theorem movedBundle_back (t b : Idx d) : movedBundle t (fun a => b a - t a) = b := funext fun _ => sub_add_cancel _ _

theorem visibility_moved (t : Idx d) (k : Kind d) (F : E → E) (occ : Occ W E → K) (ho : ∀ o, occ (mapHits F o) = occ o) (vm : VisModel K) (content content' : Nat → Idx d → Option (Occ W E))
    (hc : ∀ c < 2 ^ d, ∀ i, (content' (movedGrid t c) (movedCell t c i)).getD default = mapHits F ((content c i).getD default)) (alloc alloc' : Set (Idx d)) (ha : ∀ b, movedBundle t b ∈ alloc' ↔ b ∈ alloc) (s b : Idx d) :
    visibility (movedKind t k) occ vm content' alloc' (movedBundle t s) (movedBundle t b) = visibility k occ vm content alloc s b := by
  have e : occlusion (movedKind t k) occ content' alloc' (movedBundle t s) (movedBundle t b) = occlusion k occ content alloc s b := by
    unfold occlusion
    refine congrArg (fun l => List.foldr min 1 l) (List.map_congr_left fun a _ => ?_)
    rw [towards_moved]
    have eb : ∀ x, bundleOcc occ content' alloc' (movedBundle t x) = bundleOcc occ content alloc x := by
      intro x
      unfold bundleOcc
      by_cases hx : x ∈ alloc
      · rw [if_pos hx, if_pos ((ha x).2 hx), ← sum_movedGrid t]
        refine congrArg (· / _) (Finset.sum_congr rfl fun c hc' => ?_)
        rw [binCell_moved, hc c (Finset.mem_range.1 hc'), ho]
      · rw [if_neg hx, if_neg fun h => hx ((ha x).1 h)]
    by_cases hv : ValidBundle k (towards s b a)
    · rw [if_pos hv, if_pos ((validBundle_moved t k _).2 hv), eb]
    · rw [if_neg hv, if_neg fun h => hv ((validBundle_moved t k _).1 h)]
  unfold visibility
  rw [e]

theorem walk_moved (t : Idx d) (prior : K) (vis vis' : Idx d → K) (h : ∀ b, vis' (movedBundle t b) = vis b) : ∀ (l : List (Idx d)) (v : K), walk prior vis' (l.map (movedBundle t)) v = walk prior vis l v
  | [], _ => rfl
  | x :: l, v => by
    rw [List.map_cons]
    unfold walk
    rw [h, walk_moved t prior vis vis' h l]

theorem verdict_moved {t : Idx d} {g g' : Geo K d} (hg : Displaced t g g') (hr : 0 < g.r) (k : Kind d) {s s' : Scan K d W} (h : DisplacedScan t g s s') (sample : Pt K d → E) (F : E → E)
    (hF : ∀ p, sample (translate (displacement g.r t) p) = F (sample p)) (occ : Occ W E → K) (ho : ∀ o, occ (mapHits F o) = occ o) (vm : VisModel K)
    (st : St k.backend (Occ W E)) (st' : St (movedKind t k).backend (Occ W E)) (hR : MovedSt F t k st st') (S : Finset (Idx d)) (b : Idx d) (hb : b ∈ hitBundles g k s) :
    verdict sample g' (movedKind t k) s' occ vm st'.content st'.abs.allocated (S.image (movedBundle t)) (movedBundle t b) = verdict sample g k s occ vm st.content st.abs.allocated S b := by
  have hv : ∀ x, visibility (movedKind t k) occ vm (recorded sample g' (movedKind t k) s' st'.content (S.image (movedBundle t))) (st'.abs.allocated ∪ ↑(S.image (movedBundle t)))
      (movedBundle t fun a => ⌊g.toMap (s.pose 0) a / (g.r / 2)⌋) (movedBundle t x) =
      visibility k occ vm (recorded sample g k s st.content S) (st.abs.allocated ∪ ↑S) (fun a => ⌊g.toMap (s.pose 0) a / (g.r / 2)⌋) x := by
    intro x
    refine visibility_moved t k F occ ho vm _ _ (fun c hc i => ?_) _ _ (fun b => ?_) _ x
    · show withSamples _ _ = mapHits F (withSamples _ _)
      rw [← withSamples_mapHits, hR.vals c hc i, hitsOn_moved hg k h, Multiset.map_map, Multiset.map_map]
      refine congrArg (fun m => withSamples m _) (Multiset.map_congr rfl fun p _ => hF p)
    · refine or_congr ?_ ?_
      · rw [Abs.mem_allocated, Abs.mem_allocated, hR.flags]
      · rw [Finset.mem_coe, Finset.mem_coe, Finset.mem_image]
        exact ⟨fun ⟨y, hy, e⟩ => movedBundle_injective t e ▸ hy, fun hx => ⟨b, hx, rfl⟩⟩
  unfold verdict
  simp only
  rw [h.pose, hg.toMap, hg.r, floor_moved hr, rayOf_moved hg hr k h b hb, walk_moved t _ _ _ hv, hv]

theorem pass_moved (t : Idx d) (v v' : Finset (Idx d) → Idx d → Option Bool) : ∀ (l : List (Idx d)) (S : Finset (Idx d)), (∀ b ∈ l, ∀ S, v' (S.image (movedBundle t)) (movedBundle t b) = v S b) →
    pass v' (l.map (movedBundle t)) (S.image (movedBundle t)) = ((pass v l S).1.image (movedBundle t), (pass v l S).2)
  | [], _, _ => rfl
  | b :: l, S, h => by
    rw [List.map_cons]
    unfold pass
    rw [h b (List.mem_cons_self ..) S]
    cases v S b with
    | none => rfl
    | some x =>
      cases x with
      | false => exact pass_moved t v v' l S fun x hx => h x (List.mem_cons_of_mem _ hx)
      | true =>
        simp only
        rw [← Finset.image_insert]
        exact pass_moved t v v' l _ fun x hx => h x (List.mem_cons_of_mem _ hx)

/-! ### the steps -/

theorem freeBy_moved {t : Idx d} {g g' : Geo K d} (hg : Displaced t g g') (fl : Flavour K d W E) (hamount : ∀ m : Multiset (Pt K d), fl.amount ((m.map (translate (displacement g.r t))).map fl.sample) = fl.amount (m.map fl.sample))
    (skip : Bool) (hr : 0 < g.r) (k : Kind d) {s s' : Scan K d W} (h : DisplacedScan t g s s') (c : Nat) (i : Idx d) :
    freeBy fl skip g' (movedKind t k) s' (movedGrid t c) (movedCell t c i) = freeBy fl skip g k s c i := by
  unfold freeBy
  rw [hitBundles_moved hg hr k h, Finset.sum_image fun a _ b _ e => movedBundle_injective t e, hg.r]
  refine Finset.sum_congr rfl fun b hb => ?_
  rw [rayOf_moved hg hr k h b hb, hitsIn_moved hg k h, hamount, List.filter_map, List.length_map]
  refine congrArg (fun l => List.length l • _) (List.filter_congr fun x _ => ?_)
  simp only [Function.comp]
  rw [decide_eq_decide]
  refine and_congr (validBundle_moved t k x) (and_congr (bundleInCell_moved t g.r x c i) (imp_congr_right fun _ => not_congr ?_))
  rw [Finset.mem_image]
  exact ⟨fun ⟨y, hy, e⟩ => movedBundle_injective t e ▸ hy, fun hx => ⟨x, hx, rfl⟩⟩

theorem touches_moved {t : Idx d} {g g' : Geo K d} (hg : Displaced t g g') (hr : 0 < g.r) (k : Kind d) {s s' : Scan K d W} (h : DisplacedScan t g s s') (b : Idx d) :
    Touches g' (movedKind t k) s' (movedBundle t b) ↔ Touches g k s b := by
  unfold Touches
  rw [hitBundles_moved hg hr k h]
  refine or_congr ?_ (and_congr (validBundle_moved t k b) ?_)
  · rw [Finset.mem_image]
    exact ⟨fun ⟨y, hy, e⟩ => movedBundle_injective t e ▸ hy, fun hx => ⟨b, hx, rfl⟩⟩
  · constructor
    · rintro ⟨e, he, hb⟩
      obtain ⟨e', he', rfl⟩ := Finset.mem_image.1 he
      rw [rayOf_moved hg hr k h e' he', List.mem_map] at hb
      obtain ⟨y, hy, e⟩ := hb
      exact ⟨e', he', movedBundle_injective t e ▸ hy⟩
    · rintro ⟨e, he, hb⟩
      exact ⟨_, Finset.mem_image.2 ⟨e, he, rfl⟩, by rw [rayOf_moved hg hr k h e he]; exact List.mem_map.2 ⟨b, hb, rfl⟩⟩

open Classical in
omit [Field K] [LinearOrder K] [IsStrictOrderedRing K] [FloorRing K] in
/-- insertions allocate bundles that are to be expanded, and keep the flags of the others -/
theorem occAdd_flags {B : Backend d} (L : B.Lawful) (dyn : Bool) (l : List (Idx d × Occ W E)) (st st' : St B (Occ W E)) (hI : RInv L dyn st) (h : occAdd dyn l st = some st') (b : Idx d) :
    st'.abs.flags b = if b ∈ st'.abs.allocated then some ((st.abs.flags b).getD true) else none := by
  have hf := (occAdd_spec L dyn l st st' hI h).2.2.2.1 b
  by_cases hb : b ∈ l.map Prod.fst
  · rw [if_pos hb] at hf
    rw [if_pos (by rw [Abs.mem_allocated, hf]; rfl), hf]
  · rw [if_neg hb] at hf
    by_cases ha : b ∈ st'.abs.allocated
    · rw [if_pos ha]
      rw [Abs.mem_allocated, hf] at ha
      obtain ⟨x, hx⟩ := Option.isSome_iff_exists.1 ha
      rw [hf, hx]; rfl
    · rw [if_neg ha]
      rw [Abs.mem_allocated] at ha
      simpa using ha

section
variable {B : Backend d} {D : Type} [Inhabited D]

theorem bundleAt_flags (L : B.Lawful) (dyn : Bool) (exp : D → Bool) (b : Idx d) (st u : St B D) (hI : RInv L dyn st) (h : coreStep dyn exp (.bundleAt b) st = some u) (bj : Idx d) :
    u.abs.flags bj = if st.abs.valid dyn b = true ∧ bj = b then some ((st.abs.flags b).getD true) else st.abs.flags bj := by
  simp only [coreStep, getDistributionBundle] at h
  split at h
  · rename_i hv
    cases hg : getAllocate dyn b st with
    | none => rw [hg] at h; cases h
    | some p =>
      obtain ⟨x, st1⟩ := p
      rw [hg] at h
      cases h
      have hr := getAllocate_refines L dyn b st hI.inv
      rw [hg] at hr
      obtain ⟨hgood, hI1, hA1⟩ := hr.of_some rfl
      have hv' : st.abs.valid dyn b = true := hv
      rw [hA1, Abs.flags_alloc]
      simp only [hv', true_and]
  · rename_i hv
    have hv' : ¬ st.abs.valid dyn b = true := hv
    cases h
    rw [if_neg fun h => hv' h.1]

theorem get_same (dyn : Bool) (exp : D → Bool) (b : Idx d) (st u : St B D) (h : coreStep dyn exp (.get b) st = some u) : u = st := by
  simp only [coreStep] at h
  cases hg : getBundle dyn b st with
  | none => rw [hg] at h; cases h
  | some p => rw [hg] at h; cases h; rfl

theorem expandOne_flags (L : B.Lawful) (dyn : Bool) (exp : D → Bool) (b : Idx d) (st u : St B D) (hI : RInv L dyn st) (h : coreStep dyn exp (.expandOne b) st = some u) (bj : Idx d) :
    u.abs.flags bj = if st.abs.valid dyn b = true ∧ st.abs.trigger exp b then
      (if bj = b then some false else if st.abs.valid dyn bj = true ∧ Neighbour b bj then some ((st.abs.flags bj).getD true) else st.abs.flags bj) else st.abs.flags bj := by
  simp only [coreStep] at h
  by_cases hv : st.abs.valid dyn b = true
  · have hv' : st.valid dyn b = true := hv
    by_cases ha : b ∈ st.abs.allocated
    · have hl : allocPartialList dyn exp [b] st = some u := by
        obtain ⟨x, hx⟩ := Option.isSome_iff_exists.1 ((mem_allocated_iff st b).1 ha)
        unfold getBundle at h
        unfold bundle Backend.look at hx
        split at hx
        · rename_i hok
          rw [if_pos hv', if_pos hok, hx] at h
          simp only [allocPartialList]
          simp only at h
          rw [h]
        · cases hx
      have hm : ∀ x ∈ [b], x ∈ st.abs.allocated := by intro x hx; rw [List.mem_singleton] at hx; exact hx ▸ ha
      obtain ⟨-, e, -, hgd⟩ := (allocPartialList_spec L dyn exp [b] st hI hm).1 u hl
      rw [e, (Abs.flags_allocPartialList dyn exp [b] st.abs hI.ainv hI.rng (by simp) hm fun x hx ht => hgd x hx (by simp) ht).2 bj]
      simp only [hv, true_and, List.mem_singleton]
      by_cases ht : st.abs.trigger exp b
      · rw [if_pos ht]
        by_cases e : bj = b
        · subst e; rw [if_pos ⟨rfl, ht⟩, if_pos rfl]
        · rw [if_neg fun h => e h.1, if_neg e]
          simp [ht]
      · rw [if_neg ht, if_neg (fun h : bj = b ∧ st.abs.trigger exp bj => ht (h.1 ▸ h.2)), if_neg]
        rintro ⟨-, x, hx, h, -⟩
        exact ht (List.mem_singleton.1 hx ▸ h)
    · have ht : ¬ st.abs.trigger exp b := fun h => ha (by rw [Abs.mem_allocated, h.1]; rfl)
      rw [if_neg fun h => ht h.2]
      have : u = st := by
        rw [mem_allocated_iff] at ha
        unfold getBundle at h
        unfold bundle Backend.look at ha
        rw [if_pos hv'] at h
        split at ha
        · rename_i hok
          rw [if_pos hok] at h
          cases hx : B.get st.bundles b with
          | none => rw [hx] at h; cases h; rfl
          | some x => rw [hx] at ha; exact absurd rfl ha
        · rename_i hok
          rw [if_neg hok] at h
          cases h
      rw [this]
  · have hv' : ¬ st.valid dyn b = true := hv
    unfold getBundle at h
    rw [if_neg hv'] at h
    cases h
    rw [if_neg fun h => hv h.1]

end

section
variable {t : Idx d} {g g' : Geo K d} (hg : Displaced t g g') (hr : 0 < g.r) (fl : Flavour K d W E) (hmean : ∀ s : Multiset (Pt K d), fl.mean (s.map fl.sample) = Spec.meanOf s) (F : E → E)
  (hF : ∀ p, fl.sample (translate (displacement g.r t) p) = F (fl.sample p))
  (hamount : ∀ m : Multiset (Pt K d), fl.amount ((m.map (translate (displacement g.r t))).map fl.sample) = fl.amount (m.map fl.sample))
  (k : Kind d) (defRay defRay' : Pt K d → Pt K d → List (Idx d))
  (exp : Occ W E → Bool) (hexp : exp default = false) (hexpF : ∀ o, exp (mapHits F o) = exp o)

/-- distributions of reachable maps are determined by their hits and free counts -/
theorem vals_of_counts (st : St k.backend (Occ W E)) (st' : St (movedKind t k).backend (Occ W E)) (hst : OccReachable fl k g defRay exp st) (hst' : OccReachable fl (movedKind t k) g' defRay' exp st')
    (h : ∀ c < 2 ^ d, ∀ i, ((st'.content (movedGrid t c) (movedCell t c i)).getD Occ.new).samples = ((st.content c i).getD Occ.new).samples.map F ∧
      ((st'.content (movedGrid t c) (movedCell t c i)).getD Occ.new).free = ((st.content c i).getD Occ.new).free) :
    ∀ c < 2 ^ d, ∀ i, (st'.content (movedGrid t c) (movedCell t c i)).getD Occ.new = mapHits F ((st.content c i).getD Occ.new) := by
  obtain ⟨ops, h1⟩ := hst
  obtain ⟨ops', h2⟩ := hst'
  intro c hc i
  exact occ_mapHits_of_counts fl F k (movedKind t k) g g' defRay defRay' exp exp ops ops' st h1 st' h2 c _ hc (movedGrid_lt t hc) i _ (h c hc i).1 (h c hc i).2

include hg hr hmean hF hamount

open Classical in
theorem insert_moved (st u : St k.backend (Occ W E)) (st' u' : St (movedKind t k).backend (Occ W E)) (hst : OccReachable fl k g defRay exp st) (hst' : OccReachable fl (movedKind t k) g' defRay' exp st')
    (hu : OccReachable fl k g defRay exp u) (hu' : OccReachable fl (movedKind t k) g' defRay' exp u') (hR : MovedSt F t k st st') {s s' : Scan K d W} (hs : DisplacedScan t g s s')
    (h : occInsert fl g k.dyn s st = some u) (h' : occInsert fl g' (movedKind t k).dyn s' st' = some u') : MovedSt F t k u u' := by
  constructor
  · refine vals_of_counts fl F k defRay defRay' exp u u' hu hu' fun c hc i => ?_
    obtain ⟨a1, a2⟩ := insert_contribution fl hmean k g hr defRay exp st u hst s h c hc i
    obtain ⟨b1, b2⟩ := insert_contribution fl hmean (movedKind t k) g' (hg.r ▸ hr) defRay' exp st' u' hst' s' h' _ (movedGrid_lt t hc) (movedCell t c i)
    rw [a1, a2, b1, b2, hR.vals c hc i, hitBundles_moved hg hr k hs, hitsOn_moved hg k hs, freeBy_moved hg fl hamount _ hr k hs]
    refine ⟨?_, rfl⟩
    rw [Multiset.map_add, Multiset.map_map, Multiset.map_map]
    refine congrArg₂ (· + ·) ?_ (Multiset.map_congr rfl fun p _ => hF p)
    unfold mapHits Occ.samples
    cases ((st.content c i).getD Occ.new).data <;> rfl
  · intro b
    have hI := hst.rinv
    have hI' := hst'.rinv
    have hb : movedBundle t b ∈ u'.abs.allocated ↔ b ∈ u.abs.allocated := by
      have e := scan_allocates fl hmean k g hr defRay exp st u hst s h b
      have e' := scan_allocates fl hmean (movedKind t k) g' (hg.r ▸ hr) defRay' exp st' u' hst' s' h' (movedBundle t b)
      rw [mem_bundleIndices _ _ hu.rinv.inv, mem_bundleIndices _ _ hI.inv, ← mem_allocated_iff, ← mem_allocated_iff] at e
      rw [mem_bundleIndices _ _ hu'.rinv.inv, mem_bundleIndices _ _ hI'.inv, ← mem_allocated_iff, ← mem_allocated_iff] at e'
      rw [e, e', touches_moved hg hr k hs, Abs.mem_allocated, Abs.mem_allocated, hR.flags]
    rw [occInsert_eq _ _ _ _ _ _ hI] at h
    rw [occInsert_eq _ _ _ _ _ _ hI'] at h'
    rw [occAdd_flags _ _ _ _ _ hI h, occAdd_flags _ _ _ _ _ hI' h', hR.flags]
    exact ite_congr (propext hb) (fun _ => rfl) fun _ => rfl

open Classical in
theorem visible_moved (st u : St k.backend (Occ W E)) (st' u' : St (movedKind t k).backend (Occ W E)) (hst : OccReachable fl k g defRay exp st) (hst' : OccReachable fl (movedKind t k) g' defRay' exp st')
    (hu : OccReachable fl k g defRay exp u) (hu' : OccReachable fl (movedKind t k) g' defRay' exp u') (hR : MovedSt F t k st st') {s s' : Scan K d W} (hs : DisplacedScan t g s s')
    (occ : Occ W E → K) (ho : ∀ o, occ (mapHits F o) = occ o) (vm : VisModel K)
    (h : occInsertVisible fl g k.dyn defRay s (some occ) (some vm) st = some u) (h' : occInsertVisible fl g' (movedKind t k).dyn defRay' s' (some occ) (some vm) st' = some u') : MovedSt F t k u u' := by
  obtain ⟨l, ⟨hl, hm⟩, -⟩ := C29_hit_bundles_order k g hr s
  have hl' : (l.map (movedBundle t)).Pairwise Before := List.pairwise_map.2 (hl.imp fun h => before_moved t h)
  have hm' : ∀ b, b ∈ l.map (movedBundle t) ↔ b ∈ hitBundles g' (movedKind t k) s' := by
    intro b
    rw [hitBundles_moved hg hr k hs, List.mem_map, Finset.mem_image]
    exact exists_congr fun x => and_congr (hm x) Iff.rfl
  rcases hp : pass (verdict fl.sample g k s occ vm st.content st.abs.allocated) l ∅ with ⟨S, all⟩
  have hp' : pass (verdict fl.sample g' (movedKind t k) s' occ vm st'.content st'.abs.allocated) (l.map (movedBundle t)) ∅ = (S.image (movedBundle t), all) := by
    have := pass_moved t (verdict fl.sample g k s occ vm st.content st.abs.allocated) (verdict fl.sample g' (movedKind t k) s' occ vm st'.content st'.abs.allocated) l ∅
      fun b hb S => verdict_moved hg hr k hs fl.sample F hF occ ho vm st st' hR S b ((hm b).1 hb)
    rw [hp, Finset.image_empty] at this
    exact this
  obtain ⟨a1, a2⟩ := visible_exact fl hmean k g hr defRay exp st u hst s occ vm h l hl hm S all hp
  obtain ⟨b1, b2⟩ := visible_exact fl hmean (movedKind t k) g' (hg.r ▸ hr) defRay' exp st' u' hst' s' occ vm h' _ hl' hm' _ all hp'
  constructor
  · refine vals_of_counts fl F k defRay defRay' exp u u' hu hu' fun c hc i => ?_
    obtain ⟨c1, c2⟩ := a1 c hc i
    obtain ⟨d1, d2⟩ := b1 _ (movedGrid_lt t hc) (movedCell t c i)
    have ef := freeBy_moved hg fl hamount true hr k hs c i
    unfold freeBy at ef
    rw [c1, c2, d1, d2, hR.vals c hc i, hitsOn_moved hg k hs]
    constructor
    · rw [Multiset.map_add, Multiset.map_map, Multiset.map_map]
      refine congrArg₂ (· + ·) ?_ (Multiset.map_congr rfl fun p _ => hF p)
      unfold mapHits Occ.samples
      cases ((st.content c i).getD Occ.new).data <;> rfl
    · refine congrArg₂ (· + ·) rfl ?_
      cases all
      · rfl
      · rw [if_pos rfl, if_pos rfl]
        exact ef
  · intro b
    have hI := hst.rinv
    have hI' := hst'.rinv
    have hb : movedBundle t b ∈ u'.abs.allocated ↔ b ∈ u.abs.allocated := by
      rw [a2, b2]
      refine or_congr (or_congr ?_ ?_) ?_
      · rw [Abs.mem_allocated, Abs.mem_allocated, hR.flags]
      · rw [Finset.mem_coe, Finset.mem_coe, Finset.mem_image]
        exact ⟨fun ⟨y, hy, e⟩ => movedBundle_injective t e ▸ hy, fun hx => ⟨b, hx, rfl⟩⟩
      · have e1 : movedBundle t b ∈ hitBundles g' (movedKind t k) s' ↔ b ∈ hitBundles g k s := by
          rw [hitBundles_moved hg hr k hs, Finset.mem_image]
          exact ⟨fun ⟨y, hy, e⟩ => movedBundle_injective t e ▸ hy, fun hx => ⟨b, hx, rfl⟩⟩
        refine and_congr Iff.rfl (and_congr (validBundle_moved t k b) (and_congr (not_congr e1) ?_))
        rw [hitBundles_moved hg hr k hs]
        constructor
        · rintro ⟨e, he, hb⟩
          obtain ⟨e', he', rfl⟩ := Finset.mem_image.1 he
          rw [rayOf_moved hg hr k hs e' he', List.mem_map] at hb
          obtain ⟨y, hy, e⟩ := hb
          exact ⟨e', he', movedBundle_injective t e ▸ hy⟩
        · rintro ⟨e, he, hb⟩
          exact ⟨_, Finset.mem_image.2 ⟨e, he, rfl⟩, by rw [rayOf_moved hg hr k hs e he]; exact List.mem_map.2 ⟨b, hb, rfl⟩⟩
    obtain ⟨hs1, -, hc1⟩ := occInsertVisible_spec k.lawful fl g k.dyn defRay s occ vm st u hI h
    obtain ⟨hs2, -, hc2⟩ := occInsertVisible_spec (movedKind t k).lawful fl g' (movedKind t k).dyn defRay' s' occ vm st' u' hI' h'
    have f1 : u.abs.flags b = if b ∈ u.abs.allocated then some ((st.abs.flags b).getD true) else none := by
      rcases hc1 with hc1 | hc1 <;> exact occAdd_flags _ _ _ _ _ hI hc1 b
    have f2 : u'.abs.flags (movedBundle t b) = if movedBundle t b ∈ u'.abs.allocated then some ((st'.abs.flags (movedBundle t b)).getD true) else none := by
      rcases hc2 with hc2 | hc2 <;> exact occAdd_flags _ _ _ _ _ hI' hc2 _
    rw [f1, f2, hR.flags]
    simp only [hb]

omit hg hr hmean hF hamount in
include hexp hexpF in
theorem trigger_moved (st : St k.backend (Occ W E)) (st' : St (movedKind t k).backend (Occ W E)) (hR : MovedSt F t k st st') (b : Idx d) :
    st'.abs.trigger exp (movedBundle t b) ↔ st.abs.trigger exp b := by
  have key : ∀ o : Option (Occ W E), (∃ s, o = some s ∧ exp s = true) ↔ exp (o.getD Occ.new) = true := by
    intro o
    cases o with
    | none =>
      have : exp (Occ.new : Occ W E) = false := hexp
      simp [this]
    | some x => simp
  unfold Abs.trigger
  rw [hR.flags, expandable_iff, expandable_iff]
  refine and_congr Iff.rfl ?_
  have e : ∀ c < 2 ^ d, exp ((st'.content (movedGrid t c) (generateIndex (movedBundle t b) (movedGrid t c))).getD Occ.new) = exp ((st.content c (generateIndex b c)).getD Occ.new) := by
    intro c hc
    rw [binCell_eq, binCell_eq, binCell_moved, hR.vals c hc, hexpF]
  constructor
  · rintro ⟨c', hc', h⟩
    have hmm : movedGrid t (movedGrid t c') = c' := by unfold movedGrid; rw [Nat.xor_assoc, Nat.xor_self, Nat.xor_zero]
    have hc := movedGrid_lt t hc'
    refine ⟨movedGrid t c', hc, ?_⟩
    have h1 := (key _).1 h
    have h2 := e _ hc
    rw [hmm] at h2
    exact (key _).2 (h2 ▸ h1)
  · rintro ⟨c, hc, h⟩
    exact ⟨movedGrid t c, movedGrid_lt t hc, (key _).2 ((e c hc).trans ((key _).1 h))⟩

omit hg hr hmean hF hamount [IsStrictOrderedRing K] in
theorem valid_moved (st : St k.backend (Occ W E)) (st' : St (movedKind t k).backend (Occ W E)) (hst : OccReachable fl k g defRay exp st) (hst' : OccReachable fl (movedKind t k) g' defRay' exp st') (b : Idx d) :
    st'.abs.valid (movedKind t k).dyn (movedBundle t b) = st.abs.valid k.dyn b := by
  rw [Bool.eq_iff_iff, hst'.keeps.valid, hst.keeps.valid, validBundle_iff, validBundle_iff]
  exact validBundle_moved t k b

omit hg hr hmean hF hamount in
include hexp hexpF in
theorem core_moved (st u : St k.backend (Occ W E)) (st' u' : St (movedKind t k).backend (Occ W E)) (hst : OccReachable fl k g defRay exp st) (hst' : OccReachable fl (movedKind t k) g' defRay' exp st')
    (hR : MovedSt F t k st st') (op op' : CoreOp d)
    (hop : DisplacedAnyOp F t g (.core op : OccMapOp K d W E) (.core op'))
    (h : coreStep k.dyn exp op st = some u) (h' : coreStep (movedKind t k).dyn exp op' st' = some u') : MovedSt F t k u u' := by
  have hI := hst.rinv
  have hI' := hst'.rinv
  have hv := valid_moved fl k defRay defRay' exp st st' hst hst'
  have htr := trigger_moved F k exp hexp hexpF st st' hR
  have g1 := (coreStep_spec k.lawful k.dyn exp op st hI u h).2
  have g2 := (coreStep_spec (movedKind t k).lawful (movedKind t k).dyn exp op' st' hI' u' h').2
  refine ⟨fun c hc i => ?_, fun b => ?_⟩
  · have e1 : (u.content c i).getD Occ.new = (st.content c i).getD Occ.new := g1.val c i
    have e2 : (u'.content (movedGrid t c) (movedCell t c i)).getD Occ.new = (st'.content (movedGrid t c) (movedCell t c i)).getD Occ.new := g2.val _ _
    rw [e1, e2, hR.vals c hc i]
  · have hnb : ∀ x y : Idx d, Neighbour (movedBundle t x) (movedBundle t y) ↔ Neighbour x y := by
      intro x y
      refine forall_congr' fun a => ?_
      unfold movedBundle
      rw [add_sub_add_right_eq_sub]
    have hinj : ∀ x y : Idx d, movedBundle t x = movedBundle t y ↔ x = y := fun x y => (movedBundle_injective t).eq_iff
    cases hop with
    | bundleAt b0 =>
      rw [bundleAt_flags _ _ _ _ _ _ hI h, bundleAt_flags _ _ _ _ _ _ hI' h', hv, hR.flags, hR.flags]
      simp only [hinj]
    | get => rw [get_same _ _ _ _ _ h, get_same _ _ _ _ _ h', hR.flags]
    | expandOne b0 =>
      rw [expandOne_flags _ _ _ _ _ _ hI h, expandOne_flags _ _ _ _ _ _ hI' h', hv, hv, hR.flags]
      simp only [hinj, htr, hnb]
    | expandAll =>
      rw [(allocPartials_flags k.lawful k.dyn exp st u hI h).2.2 b, (allocPartials_flags (movedKind t k).lawful (movedKind t k).dyn exp st' u' hI' h').2.2 _, hR.flags, hv]
      have e : (∃ bi ∈ st'.bundleIndices, st'.abs.trigger exp bi ∧ Neighbour bi (movedBundle t b)) ↔ ∃ bi ∈ st.bundleIndices, st.abs.trigger exp bi ∧ Neighbour bi b := by
        constructor
        · rintro ⟨x, -, h1, h2⟩
          rw [← movedBundle_back t x] at h1 h2
          have h3 := (htr _).1 h1
          refine ⟨_, ?_, h3, (hnb _ _).1 h2⟩
          rw [mem_bundleIndices _ _ hI.inv, ← mem_allocated_iff, Abs.mem_allocated, h3.1]; rfl
        · rintro ⟨x, -, h1, h2⟩
          have h3 := (htr x).2 h1
          refine ⟨_, ?_, h3, (hnb _ _).2 h2⟩
          rw [mem_bundleIndices _ _ hI'.inv, ← mem_allocated_iff, Abs.mem_allocated, h3.1]; rfl
      simp only [htr, e]

variable (hdef : ∀ p q, defRay' (translate (displacement g.r t) p) (translate (displacement g.r t) q) = (defRay p q).map (movedBundle t))
include hexp hexpF hdef

theorem step_moved (st u : St k.backend (Occ W E)) (st' u' : St (movedKind t k).backend (Occ W E)) (hst : OccReachable fl k g defRay exp st) (hst' : OccReachable fl (movedKind t k) g' defRay' exp st')
    (hR : MovedSt F t k st st') (op op' : OccMapOp K d W E) (hop : DisplacedAnyOp F t g op op')
    (h : occStep fl g k.dyn defRay exp op st = some u) (h' : occStep fl g' (movedKind t k).dyn defRay' exp op' st' = some u') : MovedSt F t k u u' := by
  have hu : OccReachable fl k g defRay exp u := hst.later (ops := [op]) (by show (occStep _ _ _ _ _ _ _).bind _ = _; rw [h]; rfl)
  have hu' : OccReachable fl (movedKind t k) g' defRay' exp u' := hst'.later (ops := [op']) (by show (occStep _ _ _ _ _ _ _).bind _ = _; rw [h']; rfl)
  have fb : ∀ s s' : Scan K d W, DisplacedScan t g s s' → DisplacedScan t g (if fl.fallbackDefault then { s with ray := defRay } else s) (if fl.fallbackDefault then { s' with ray := defRay' } else s') := by
    intro s s' hs
    split
    · exact ⟨hs.pose, hs.cloud, hdef⟩
    · exact hs
  cases hop with
  | insert s s' hs => exact insert_moved hg hr fl hmean F hF hamount k defRay defRay' exp st u st' u' hst hst' hu hu' hR hs h h'
  | insertVisible s s' hs occ ho vm =>
    cases occ with
    | none => exact insert_moved hg hr fl hmean F hF hamount k defRay defRay' exp st u st' u' hst hst' hu hu' hR (fb s s' hs) h h'
    | some occ =>
      cases vm with
      | none => exact insert_moved hg hr fl hmean F hF hamount k defRay defRay' exp st u st' u' hst hst' hu hu' hR (fb s s' hs) h h'
      | some vm => exact visible_moved hg hr fl hmean F hF hamount k defRay defRay' exp st u st' u' hst hst' hu hu' hR hs occ (ho occ rfl) vm h h'
  | bundleAt b => exact core_moved fl F k defRay defRay' exp hexp hexpF st u st' u' hst hst' hR _ _ (.bundleAt b) h h'
  | get b b' => exact core_moved fl F k defRay defRay' exp hexp hexpF st u st' u' hst hst' hR _ _ (.get b b') h h'
  | expandOne b => exact core_moved fl F k defRay defRay' exp hexp hexpF st u st' u' hst hst' hR _ _ (.expandOne b) h h'
  | expandAll => exact core_moved fl F k defRay defRay' exp hexp hexpF st u st' u' hst hst' hR _ _ .expandAll h h'

theorem run_moved : ∀ (ops ops' : List (OccMapOp K d W E)) (_ : List.Forall₂ (DisplacedAnyOp F t g) ops ops') (st u : St k.backend (Occ W E)) (st' u' : St (movedKind t k).backend (Occ W E))
    (_ : OccReachable fl k g defRay exp st) (_ : OccReachable fl (movedKind t k) g' defRay' exp st') (_ : MovedSt F t k st st')
    (_ : occRun fl g k.dyn defRay exp ops st = some u) (_ : occRun fl g' (movedKind t k).dyn defRay' exp ops' st' = some u'), MovedSt F t k u u'
  | [], [], _, _, _, _, _, _, _, hR, h, h' => by cases h; cases h'; exact hR
  | op :: ops, op' :: ops', hops, st, u, st', u', hst, hst', hR, h, h' => by
    cases hops with
    | cons hop hops =>
      obtain ⟨v, hv, h⟩ := Option.bind_eq_some_iff.1 h
      obtain ⟨v', hv', h'⟩ := Option.bind_eq_some_iff.1 h'
      exact run_moved ops ops' hops v u v' u' (hst.later (ops := [op]) (by show (occStep _ _ _ _ _ _ _).bind _ = _; rw [hv]; rfl))
        (hst'.later (ops := [op']) (by show (occStep _ _ _ _ _ _ _).bind _ = _; rw [hv']; rfl))
        (step_moved hg hr fl hmean F hF hamount k defRay defRay' exp hexp hexpF hdef st v st' v' hst hst' hR op op' hop hv hv') h h'
  | [], _ :: _, h, _, _, _, _, _, _, _, _, _ => nomatch h
  | _ :: _, [], h, _, _, _, _, _, _, _, _, _ => nomatch h

theorem history_moved (ops ops' : List (OccMapOp K d W E)) (hops : List.Forall₂ (DisplacedAnyOp F t g) ops ops') (u : St k.backend (Occ W E)) (u' : St (movedKind t k).backend (Occ W E))
    (h : occRun fl g k.dyn defRay exp ops (k.init _) = some u) (h' : occRun fl g' (movedKind t k).dyn defRay' exp ops' ((movedKind t k).init _) = some u') : MovedSt F t k u u' := by
  refine run_moved hg hr fl hmean F hF hamount k defRay defRay' exp hexp hexpF hdef ops ops' hops _ u _ u' ⟨[], rfl⟩ ⟨[], rfl⟩ ⟨fun c hc i => ?_, fun b => ?_⟩ h h'
  · have e : ∀ (k : Kind d) c i, (k.init (Occ W E)).content c i = none := fun k c i => Kind.init_content k c i
    rw [e, e]
    rfl
  · have e : ∀ (k : Kind d) (b : Idx d), (k.init (Occ W E)).abs.flags b = none := fun k b => by
      have : b ∉ (k.init (Occ W E)).abs.allocated := by rw [Kind.init_allocated]; exact id
      rw [Abs.mem_allocated] at this
      simpa using this
    rw [e, e]

end

end
section
variable {K : Type} [Field K] [LinearOrder K] [IsStrictOrderedRing K] [FloorRing K] {d : Nat} {M : Type}

/-- **C92** (any history of occupancy maps). Two occupancy maps of any kind whose coordinates differ by `t` half cells are given the same scans, by `insert` and `insertVisible`, and the same allocations. If the line iterators visit the same
bundles of space and neither the occupancies nor the trigger of the neighbourhood allocation depend on the places of the hits, then every cell of the one map is a cell of the other, with the same hits and misses, and the same bundles are
allocated. -/
theorem C92_occupancy_history (t : Idx d) (k : Kind d) (g g' : Geo K d) (hr : 0 < g.r) (hg : Displaced t g g') (ray ray' : Pt K d → Pt K d → List (Idx d))
    (hray : ∀ p q, ray' (translate (displacement g.r t) p) (translate (displacement g.r t) q) = (ray p q).map (movedBundle t)) (exp : Occ Nat (Pt K d) → Bool) (hexp : exp default = false)
    (hexpF : ∀ o, exp (mapHits (translate (displacement g.r t)) o) = exp o)
    (ops ops' : List (OccMapOp K d Nat (Pt K d))) (hops : List.Forall₂ (DisplacedAnyOp (translate (displacement g.r t)) t g) ops ops')
    (st : St k.backend (Occ Nat (Pt K d))) (h : occRun (occFlavour K d) g k.dyn ray exp ops (k.init _) = some st)
    (st' : St (movedKind t k).backend (Occ Nat (Pt K d))) (h' : occRun (occFlavour K d) g' (movedKind t k).dyn ray' exp ops' ((movedKind t k).init _) = some st') :
    (∀ c < 2 ^ d, ∀ i, (st'.content (movedGrid t c) (movedCell t c i)).getD Occ.new = mapHits (translate (displacement g.r t)) ((st.content c i).getD Occ.new)) ∧
    ∀ b, movedBundle t b ∈ st'.bundleIndices ↔ b ∈ st.bundleIndices := by
  have hR := history_moved hg hr (occFlavour K d) (fun s => by rw [show (occFlavour K d).sample = id from rfl, Multiset.map_id]; rfl) (translate (displacement g.r t)) (fun _ => rfl)
    (fun m => by rw [show (occFlavour K d).sample = id from rfl, Multiset.map_id, Multiset.map_id]; exact Multiset.card_map _ m) k ray ray' exp hexp hexpF hray ops ops' hops st st' h h'
  have hI : OccReachable (occFlavour K d) k g ray exp st := ⟨ops, h⟩
  have hI' : OccReachable (occFlavour K d) (movedKind t k) g' ray' exp st' := ⟨ops', h'⟩
  refine ⟨hR.vals, fun b => ?_⟩
  rw [mem_bundleIndices _ _ hI.rinv.inv, mem_bundleIndices _ _ hI'.rinv.inv, ← mem_allocated_iff, ← mem_allocated_iff, Abs.mem_allocated, Abs.mem_allocated, hR.flags]

/-- **C92** (any history of weighted occupancy maps): as `C92_occupancy_history`. -/
theorem C92_weighted_history (t : Idx d) (k : Kind d) (g g' : Geo K d) (hr : 0 < g.r) (hg : Displaced t g g') (ray ray' : Pt K d → Pt K d → List (Idx d))
    (hray : ∀ p q, ray' (translate (displacement g.r t) p) (translate (displacement g.r t) q) = (ray p q).map (movedBundle t)) (exp : Occ K (Pt K d × K) → Bool) (hexp : exp default = false)
    (hexpF : ∀ o, exp (mapHits (fun x => (translate (displacement g.r t) x.1, x.2)) o) = exp o)
    (ops ops' : List (OccMapOp K d K (Pt K d × K))) (hops : List.Forall₂ (DisplacedAnyOp (fun x => (translate (displacement g.r t) x.1, x.2)) t g) ops ops')
    (st : St k.backend (Occ K (Pt K d × K))) (h : occRun (weightedFlavour K d) g k.dyn ray exp ops (k.init _) = some st)
    (st' : St (movedKind t k).backend (Occ K (Pt K d × K))) (h' : occRun (weightedFlavour K d) g' (movedKind t k).dyn ray' exp ops' ((movedKind t k).init _) = some st') :
    (∀ c < 2 ^ d, ∀ i, (st'.content (movedGrid t c) (movedCell t c i)).getD Occ.new = mapHits (fun x => (translate (displacement g.r t) x.1, x.2)) ((st.content c i).getD Occ.new)) ∧
    ∀ b, movedBundle t b ∈ st'.bundleIndices ↔ b ∈ st.bundleIndices := by
  have hR := history_moved hg hr (weightedFlavour K d) weightedFlavour_mean (fun x => (translate (displacement g.r t) x.1, x.2)) (fun _ => rfl)
    (fun m => by
      show ((((m.map _).map _).map Prod.snd).sum : K) = ((m.map _).map Prod.snd).sum
      rw [Multiset.map_map, Multiset.map_map, Multiset.map_map]
      rfl) k ray ray' exp hexp hexpF hray ops ops' hops st st' h h'
  have hI : OccReachable (weightedFlavour K d) k g ray exp st := ⟨ops, h⟩
  have hI' : OccReachable (weightedFlavour K d) (movedKind t k) g' ray' exp st' := ⟨ops', h'⟩
  refine ⟨hR.vals, fun b => ?_⟩
  rw [mem_bundleIndices _ _ hI.rinv.inv, mem_bundleIndices _ _ hI'.rinv.inv, ← mem_allocated_iff, ← mem_allocated_iff, Abs.mem_allocated, Abs.mem_allocated, hR.flags]

/-- **C92** (samples after any history of occupancy maps): as `C92_occupancy_samples`, with visibility-aware insertions. -/
theorem C92_occupancy_history_samples (t : Idx d) (k : Kind d) (g g' : Geo K d) (hr : 0 < g.r) (hg : Displaced t g g') (ray ray' : Pt K d → Pt K d → List (Idx d))
    (hray : ∀ p q, ray' (translate (displacement g.r t) p) (translate (displacement g.r t) q) = (ray p q).map (movedBundle t)) (exp : Occ Nat (Pt K d) → Bool) (hexp : exp default = false)
    (hexpF : ∀ o, exp (mapHits (translate (displacement g.r t)) o) = exp o)
    (ops ops' : List (OccMapOp K d Nat (Pt K d))) (hops : List.Forall₂ (DisplacedAnyOp (translate (displacement g.r t)) t g) ops ops')
    (s0 s1 st : St k.backend (Occ Nat (Pt K d))) (h0 : occRun (occFlavour K d) g k.dyn ray exp ops (k.init _) = some s0) (h1 : allocPartials k.dyn exp s0 = some s1) (more : List (CoreOp d))
    (h : coreRun k.dyn exp more s1 = some st)
    (s0' s1' st' : St (movedKind t k).backend (Occ Nat (Pt K d))) (h0' : occRun (occFlavour K d) g' (movedKind t k).dyn ray' exp ops' ((movedKind t k).init _) = some s0')
    (h1' : allocPartials (movedKind t k).dyn exp s0' = some s1') (more' : List (CoreOp d)) (h' : coreRun (movedKind t k).dyn exp more' s1' = some st')
    (dens : Multiset (Pt K d) → Pt K d → K) (occ : M → Occ Nat (Pt K d) → K) (m : M) (hd : ∀ (o : Occ Nat (Pt K d)) s q, o.data = some s → exp o = false → dens s q = 0)
    (hdens : ∀ v s q, dens (s.map (translate v)) (translate v q) = dens s q) (hocc : ∀ v o, occ m (mapHits (translate v) o) = occ m o)
    (p : Pt K d) (hp : Region g.r k (g.toMap p)) (x x' : K) :
    (occSampleNNAt g k.dyn dens occ p (some m) st = .ok (some x) → occSampleNNAt g' (movedKind t k).dyn dens occ p (some m) st' = .ok (some x') → x' = x) ∧
    (occSampleBilinearAt g k.dyn dens occ p (some m) st = .ok (some x) → occSampleBilinearAt g' (movedKind t k).dyn dens occ p (some m) st' = .ok (some x') → x' = x) := by
  refine corresponding_field (occFlavour K d) (translate (displacement g.r t)) k (movedKind t k) g g' hr (hg.r ▸ hr) ray ray' exp hexp ops ops' s0 s1 st h0 h1 more h s0' s1' st' h0' h1' more' h' dens occ m hd p p hp ?_ ?_
    (hocc _) (movedGrid t) (sum_movedGrid t) (movedCell t) ?_ ?_ ((C92_occupancy_history t k g g' hr hg ray ray' hray exp hexp hexpF ops ops' hops s0 h0 s0' h0').1) x x'
  · rw [hg.r, hg.toMap]
    exact (region_moved t g.r k _).2 hp
  · intro s
    rw [hg.toMap]
    exact hdens _ s _
  · intro c i hi
    rw [hg.r, hg.toMap]
    exact (inCell_movedGrid t g.r c i _).2 hi
  · intro c i
    rw [hg.r, hg.toMap]
    exact hat_movedGrid t g.r c i _

/-- **C92** (samples after any history of weighted occupancy maps): as `C92_weighted_samples`, with visibility-aware insertions. -/
theorem C92_weighted_history_samples (t : Idx d) (k : Kind d) (g g' : Geo K d) (hr : 0 < g.r) (hg : Displaced t g g') (ray ray' : Pt K d → Pt K d → List (Idx d))
    (hray : ∀ p q, ray' (translate (displacement g.r t) p) (translate (displacement g.r t) q) = (ray p q).map (movedBundle t)) (exp : Occ K (Pt K d × K) → Bool) (hexp : exp default = false)
    (hexpF : ∀ o, exp (mapHits (fun x => (translate (displacement g.r t) x.1, x.2)) o) = exp o)
    (ops ops' : List (OccMapOp K d K (Pt K d × K))) (hops : List.Forall₂ (DisplacedAnyOp (fun x => (translate (displacement g.r t) x.1, x.2)) t g) ops ops')
    (s0 s1 st : St k.backend (Occ K (Pt K d × K))) (h0 : occRun (weightedFlavour K d) g k.dyn ray exp ops (k.init _) = some s0) (h1 : allocPartials k.dyn exp s0 = some s1) (more : List (CoreOp d))
    (h : coreRun k.dyn exp more s1 = some st)
    (s0' s1' st' : St (movedKind t k).backend (Occ K (Pt K d × K))) (h0' : occRun (weightedFlavour K d) g' (movedKind t k).dyn ray' exp ops' ((movedKind t k).init _) = some s0')
    (h1' : allocPartials (movedKind t k).dyn exp s0' = some s1') (more' : List (CoreOp d)) (h' : coreRun (movedKind t k).dyn exp more' s1' = some st')
    (dens : Multiset (Pt K d × K) → Pt K d → K) (occ : M → Occ K (Pt K d × K) → K) (m : M) (hd : ∀ (o : Occ K (Pt K d × K)) s q, o.data = some s → exp o = false → dens s q = 0)
    (hdens : ∀ v s q, dens (s.map fun x => (translate v x.1, x.2)) (translate v q) = dens s q) (hocc : ∀ v o, occ m (mapHits (fun x => (translate v x.1, x.2)) o) = occ m o)
    (p : Pt K d) (hp : Region g.r k (g.toMap p)) (x x' : K) :
    (occSampleNNAt g k.dyn dens occ p (some m) st = .ok (some x) → occSampleNNAt g' (movedKind t k).dyn dens occ p (some m) st' = .ok (some x') → x' = x) ∧
    (occSampleBilinearAt g k.dyn dens occ p (some m) st = .ok (some x) → occSampleBilinearAt g' (movedKind t k).dyn dens occ p (some m) st' = .ok (some x') → x' = x) := by
  refine corresponding_field (weightedFlavour K d) (fun x => (translate (displacement g.r t) x.1, x.2)) k (movedKind t k) g g' hr (hg.r ▸ hr) ray ray' exp hexp ops ops' s0 s1 st h0 h1 more h s0' s1' st' h0' h1' more' h' dens occ m hd p p hp ?_ ?_
    (hocc _) (movedGrid t) (sum_movedGrid t) (movedCell t) ?_ ?_ ((C92_weighted_history t k g g' hr hg ray ray' hray exp hexp hexpF ops ops' hops s0 h0 s0' h0').1) x x'
  · rw [hg.r, hg.toMap]
    exact (region_moved t g.r k _).2 hp
  · intro s
    rw [hg.toMap]
    exact hdens _ s _
  · intro c i hi
    rw [hg.r, hg.toMap]
    exact (inCell_movedGrid t g.r c i _).2 hi
  · intro c i
    rw [hg.r, hg.toMap]
    exact hat_movedGrid t g.r c i _

end

/-! ### Non-vacuity -/

def halfVm : VisModel ℚ := { probPrior := 1 / 10, probFree := 1 / 10, probOcc := 9 / 10 }
/-- two scans, the second one with visibility models, allocations of a bundle and of the neighbourhoods -/
def halfOps (s : Scan ℚ 2 Nat) (b : Idx 2) : List (OccMapOp ℚ 2 Nat (Pt ℚ 2)) := [.insert s, .insertVisible s (some (axesOcc ())) (some halfVm), .core (.bundleAt b), .core .expandAll]
def halfO (k : Kind 2) (g : Geo ℚ 2) (s : Scan ℚ 2 Nat) (b : Idx 2) : Option (St k.backend (Occ Nat (Pt ℚ 2))) := occRun (occFlavour ℚ 2) g k.dyn (fun _ _ => []) axesOccExp (halfOps s b) (k.init _)
theorem halfO_runs : (halfO axesKind axesGeo (offScan Nat) ![1, -1]).isSome = true := by decide +kernel
theorem halfO_runs' : (halfO (movedKind halfT axesKind) halfGeo (halfScan Nat) ![2, -3]).isSome = true := by decide +kernel

theorem axesOcc_moved (v : Pt ℚ 2) (o : Occ Nat (Pt ℚ 2)) : axesOcc () (mapHits (translate v) o) = axesOcc () o := by
  unfold axesOcc mapHits
  rw [Occ.numOccupied_eq, Occ.numOccupied_eq]
  unfold Occ.samples Occ.numFree
  cases o.data with
  | none => rfl
  | some s => simp only [Option.map_some, Multiset.card_map]

/-- The histories of both maps run and correspond to each other. The visibility-aware scan records one of its two hits and no miss: cell (1, -1) of grid 1 has two hits, cell (0, -1) has one hit and two misses, and so have cells (1, -2) and (0, -2) of grid 0 of the
displaced map. -/
example : Displaced halfT axesGeo halfGeo ∧ List.Forall₂ (DisplacedAnyOp (translate (displacement axesGeo.r halfT)) halfT axesGeo) (halfOps (offScan Nat) ![1, -1]) (halfOps (halfScan Nat) ![2, -3]) ∧
    axesOccExp default = false ∧ (∀ o, axesOccExp (mapHits (translate (displacement axesGeo.r halfT)) o) = axesOccExp o) ∧
    (let o := (((halfO axesKind axesGeo (offScan Nat) ![1, -1]).get halfO_runs).content 1 ![1, -1]).getD Occ.new; o.numOccupied = 2 ∧ o.numFree = 0) ∧
    (let o := (((halfO axesKind axesGeo (offScan Nat) ![1, -1]).get halfO_runs).content 1 ![0, -1]).getD Occ.new; o.numOccupied = 1 ∧ o.numFree = 2) ∧
    movedGrid halfT 1 = 0 ∧ movedCell halfT 1 ![1, -1] = ![1, -2] ∧ movedCell halfT 1 ![0, -1] = ![0, -2] ∧
    (let o := (((halfO (movedKind halfT axesKind) halfGeo (halfScan Nat) ![2, -3]).get halfO_runs').content 0 ![1, -2]).getD Occ.new; o.numOccupied = 2 ∧ o.numFree = 0) ∧
    (let o := (((halfO (movedKind halfT axesKind) halfGeo (halfScan Nat) ![2, -3]).get halfO_runs').content 0 ![0, -2]).getD Occ.new; o.numOccupied = 1 ∧ o.numFree = 2) := by
  refine ⟨halfGeo_displaced, ?_, by decide +kernel, fun o => ?_, by decide +kernel, by decide +kernel, by decide +kernel, by decide +kernel, by decide +kernel, by decide +kernel, by decide +kernel⟩
  · refine .cons (.insert _ _ (halfScan_displaced Nat)) (.cons (.insertVisible _ _ (halfScan_displaced Nat) _ (fun f hf o => ?_) _) (.cons ?_ (.cons .expandAll .nil)))
    · cases hf
      exact axesOcc_moved _ o
    · have e : (![2, -3] : Idx 2) = movedBundle halfT ![1, -1] := by decide +kernel
      rw [e]
      exact .bundleAt _
  · unfold axesOccExp mapHits Occ.samples
    cases o.data with
    | none => rfl
    | some s => simp only [Option.map_some, Option.getD_some, Multiset.card_map]

end Ndt
