import Verif.Props.Visibility
import Verif.Spec.VisibleScan
import Mathlib.Data.List.Sort

/-! Property theorems C29: the exact outcome of visibility-aware insertion for all scans. -/

namespace Ndt
open St

theorem lexLt_iff_before : ∀ {d : Nat} (i j : Idx d), lexLt i j = true ↔ Spec.Before i j
  | 0, _, _ => by
    constructor
    · intro h; cases h
    · rintro ⟨a, _⟩; exact a.elim0
  | d + 1, i, j => by
    simp only [lexLt, Bool.or_eq_true, Bool.and_eq_true, decide_eq_true_eq]
    rw [lexLt_iff_before]
    constructor
    · rintro (h | ⟨h, a, h1, h2⟩)
      · exact ⟨0, fun a' ha => absurd ha (Fin.not_lt_zero a'), h⟩
      · refine ⟨a.succ, fun a' ha => ?_, h2⟩
        refine Fin.cases (motive := fun a' => a' < a.succ → i a' = j a') (fun _ => h) (fun x hx => h1 x (Fin.succ_lt_succ_iff.1 hx)) a' ha
    · rintro ⟨a, h1, h2⟩
      revert h1 h2
      refine Fin.cases (motive := fun a => (∀ a' < a, i a' = j a') → i a < j a → _) (fun _ h => Or.inl h) (fun x h1 h2 => Or.inr ⟨h1 0 (Fin.succ_pos x), x, fun a' ha => ?_, h2⟩) a
      exact h1 a'.succ (Fin.succ_lt_succ_iff.2 ha)

section
variable {K : Type} [Field K] [LinearOrder K] [IsStrictOrderedRing K] [FloorRing K] {d : Nat} {W E : Type} [AddCommMonoid W]

omit [Field K] [LinearOrder K] [IsStrictOrderedRing K] [FloorRing K] [AddCommMonoid W] in
theorem sorted_unique {l l' : List (Idx d)} (h : l.Pairwise Spec.Before) (h' : l'.Pairwise Spec.Before) (hm : ∀ b, b ∈ l ↔ b ∈ l') : l = l' := by
  have hb : ∀ {x y : Idx d}, Spec.Before x y → Spec.Before y x → False := by
    intro x y h1 h2
    have := lexLt_trans x y x ((lexLt_iff_before _ _).2 h1) ((lexLt_iff_before _ _).2 h2)
    rw [lexLt_irrefl] at this; cases this
  have hn : ∀ {l : List (Idx d)}, l.Pairwise Spec.Before → l.Nodup := fun h => h.imp fun h e => by subst e; exact hb h h
  exact List.Perm.eq_of_pairwise (fun a b _ _ h1 h2 => (hb h1 h2).elim) h h' ((List.perm_ext_iff_of_nodup (hn h) (hn h')).2 hm)

omit [AddCommMonoid W] in
theorem Occ.add_hits [AddCommMonoid W] (o x : Occ W E) (hf : x.free = 0) (hd : x.data ≠ some 0) : o + x = Spec.withSamples x.samples o := by
  unfold Spec.withSamples
  cases hx : x.data with
  | none =>
    have h0 : x.samples = 0 := by unfold Occ.samples; rw [hx]
    rw [if_pos h0]
    refine Occ.ext' ?_ ?_
    · rw [Occ.add_free, hf, add_zero]
    · rw [Occ.add_data, hx, Occ.addData_none]
  | some m =>
    have hs : x.samples = m := by unfold Occ.samples; rw [hx]
    have hm : m ≠ 0 := fun h => hd (by rw [hx, h])
    rw [hs, if_neg hm]
    refine Occ.ext' ?_ ?_
    · rw [Occ.add_free, hf, add_zero]
    · rw [Occ.add_data, hx]
      unfold Occ.samples
      cases o.data <;> simp [Occ.addData]

/-- the hits of the groups `hs` were recorded -/
theorem recorded_spec (fl : Flavour K d W E) (hmean : ∀ s : Multiset (Pt K d), fl.mean (s.map fl.sample) = Spec.meanOf s) (k : Kind d) (g : Geo K d) (hr : 0 < g.r)
    (st t : St k.backend (Occ W E)) (hI : RInv k.lawful k.dyn st) (s : Scan K d W) (hs : List (Idx d × Multiset E))
    (hsub : hs.Sublist (occCollect fl g ((k.init (Occ W E)).abs.valid k.dyn) s.pose s.cloud)) (h : occAdd k.dyn (hs.map hitOf) st = some t) :
    (∀ c, c < 2 ^ d → ∀ i, (t.content c i).getD Occ.new = (Spec.recorded fl.sample g k s st.content (hs.map Prod.fst).toFinset c i).getD Occ.new) ∧
    t.abs.allocated = st.abs.allocated ∪ ↑(hs.map Prod.fst).toFinset := by
  classical
  obtain ⟨h1, h2, h3, h4, _⟩ := occAdd_spec k.lawful k.dyn _ st t hI h
  constructor
  · intro c hc i
    have hv : t.abs.val c i = st.abs.val c i + (((hs.map hitOf).filter (fun e => decide (generateIndex e.1 c = i))).map Prod.snd).sum := h3 c hc i
    have hsam := (visible_contents fl hmean k g hr st t hI s hs hsub false (by rw [if_neg (by simp), List.append_nil]; exact h) c hc i).1
    have hX : ((((hs.map hitOf).filter (fun e => decide (generateIndex e.1 c = i))).map Prod.snd).sum : Occ W E).samples = (Spec.hitsOn g k s (hs.map Prod.fst).toFinset c i).map fl.sample := by
      have hh := (congrArg Occ.samples hv.symm).trans (show (t.abs.val c i).samples = _ from hsam)
      rw [Occ.samples_add] at hh
      exact add_left_cancel hh
    rw [Occ.add_hits _ _ (hits_free hs (fun b => decide (generateIndex b c = i)))] at hv
    · show t.abs.val c i = _
      rw [hv, hX]
      rfl
    · refine Occ.data_sum_ne _ fun o ho => ?_
      obtain ⟨e, he, rfl⟩ := List.mem_map.1 ho
      exact hits_ne fl g _ s hs hsub e (List.mem_filter.1 he).1
  · ext b
    have hk : (hs.map (hitOf : _ → Idx d × Occ W E)).map Prod.fst = hs.map Prod.fst := by rw [List.map_map]; rfl
    rw [Abs.mem_allocated, h4 b, hk]
    by_cases hb : b ∈ hs.map Prod.fst
    · rw [if_pos hb]
      exact ⟨fun _ => Or.inr (List.mem_toFinset.2 hb), fun _ => rfl⟩
    · rw [if_neg hb]
      exact ⟨fun h => Or.inl h, fun h => h.elim id fun h => absurd (List.mem_toFinset.1 h) hb⟩

omit [LinearOrder K] [IsStrictOrderedRing K] [FloorRing K] in
open scoped Classical in
theorem bundleOcc_content {D : Type} [Inhabited D] (occ : D → K) (content content' : Nat → Idx d → Option D) (alloc : Set (Idx d)) (b : Idx d)
    (h : ∀ c, c < 2 ^ d → ∀ i, (content c i).getD default = (content' c i).getD default) : Spec.bundleOcc occ content alloc b = Spec.bundleOcc occ content' alloc b := by
  unfold Spec.bundleOcc
  split
  · refine congrArg (· / _) (Finset.sum_congr rfl fun c hc => ?_)
    rw [h c (Finset.mem_range.1 hc)]
  · rfl

/-- the pass over the groups, compared with the specification; `hs` are the groups recorded before -/
theorem visHits_exact (fl : Flavour K d W E) (hmean : ∀ s : Multiset (Pt K d), fl.mean (s.map fl.sample) = Spec.meanOf s) (k : Kind d) (g : Geo K d) (hr : 0 < g.r)
    (st : St k.backend (Occ W E)) (hI : RInv k.lawful k.dyn st) (hv : st.valid k.dyn = (k.init (Occ W E)).abs.valid k.dyn) (s : Scan K d W) (occ : Occ W E → K) (vm : VisModel K) :
    ∀ (l hs : List (Idx d × Multiset E)), (hs ++ l).Sublist (occCollect fl g ((k.init (Occ W E)).abs.valid k.dyn) s.pose s.cloud) →
    ∀ (free : List (Idx d × W)) (cur : St k.backend (Occ W E)), occAdd k.dyn (hs.map hitOf) st = some cur →
    ∀ (o : Option (List (Idx d × W))) (t : St k.backend (Occ W E)),
      visHits fl k.dyn s.ray occ vm (rayStart g s.pose) (toBundleIndex g.r (rayStart g s.pose)) l free cur = some (o, t) →
    ∃ hs' : List (Idx d × Multiset E), hs'.Sublist (hs ++ l) ∧ occAdd k.dyn (hs'.map hitOf) st = some t ∧
      ((hs'.map Prod.fst).toFinset, o.isSome) =
        Spec.pass (Spec.verdict fl.sample g k s occ vm st.content st.abs.allocated) (l.map Prod.fst) (hs.map Prod.fst).toFinset ∧
      (∀ f, o = some f → f = rayFree fl ((k.init (Occ W E)).abs.valid k.dyn) s.ray (rayStart g s.pose) l free) := by
  classical
  intro l
  induction l with
  | nil =>
    intro hs hsub free cur hcur o t h
    cases h
    exact ⟨hs, by rw [List.append_nil], hcur, rfl, fun f hf => by cases hf; rfl⟩
  | cons e l ih =>
    intro hs hsub free cur hcur o t h
    have hsub0 : hs.Sublist (occCollect fl g ((k.init (Occ W E)).abs.valid k.dyn) s.pose s.cloud) := (List.sublist_append_left hs (e :: l)).trans hsub
    have hem : e ∈ occCollect fl g ((k.init (Occ W E)).abs.valid k.dyn) s.pose s.cloud := hsub.subset (by simp)
    obtain ⟨hI1, hK1, _⟩ := occAdd_spec k.lawful k.dyn _ st cur hI hcur
    obtain ⟨hc, ha⟩ := recorded_spec fl hmean k g hr st cur hI s hs hsub0 hcur
    have hvc : cur.valid k.dyn = (k.init (Occ W E)).abs.valid k.dyn := by rw [← hv]; exact funext hK1.valid
    have hv' : ∀ i, cur.valid k.dyn i = true ↔ Spec.ValidBundle k i := by
      intro i; rw [hvc]; exact validBundle_iff (Occ W E) k i
    have hsb : toBundleIndex g.r (rayStart g s.pose) = fun a => ⌊g.toMap (s.pose 0) a / (g.r / 2)⌋ := by
      rw [floor_bundle]; rfl
    have hray : s.ray (rayStart g s.pose) (fl.mean e.2) = Spec.rayOf g k s e.1 := by
      obtain ⟨x, hx, hxe⟩ := List.mem_map.1 hem
      rw [← hxe]
      simp only
      rw [collect_value g _ s.pose _ x hx, hitsIn_eq (Occ W E) g hr k s x.1, hmean]
      rfl
    set S := (hs.map Prod.fst).toFinset with hS
    have hvis : Spec.visibility k occ vm cur.content cur.abs.allocated (fun a => ⌊g.toMap (s.pose 0) a / (g.r / 2)⌋) =
        Spec.visibility k occ vm (Spec.recorded fl.sample g k s st.content S) (st.abs.allocated ∪ ↑S) (fun a => ⌊g.toMap (s.pose 0) a / (g.r / 2)⌋) := by
      funext x
      rw [ha]
      exact visibility_congr k occ vm _ _ _ _ _ x fun a _ => bundleOcc_content occ _ _ _ _ hc
    unfold visHits at h
    rw [hray, hsb] at h
    cases hw : visRay k.dyn occ vm (fun a => ⌊g.toMap (s.pose 0) a / (g.r / 2)⌋) (fl.amount e.2) cur (Spec.rayOf g k s e.1) 1 free with
    | none => rw [hw] at h; cases h
    | some q =>
      have ho := visRay_walk k occ vm _ (fl.amount e.2) cur hI1 hv' _ _ _ q hw
      rw [hvis] at ho
      rw [hw] at h
      cases hn : Spec.walk vm.probPrior (Spec.visibility k occ vm (Spec.recorded fl.sample g k s st.content S) (st.abs.allocated ∪ ↑S)
          (fun a => ⌊g.toMap (s.pose 0) a / (g.r / 2)⌋)) (Spec.rayOf g k s e.1) 1 with
      | none =>
        have hver : Spec.verdict fl.sample g k s occ vm st.content st.abs.allocated S e.1 = none := by
          unfold Spec.verdict; simp only [hn, Option.map_none]
        rw [hn] at ho
        rw [ho] at h
        cases h
        refine ⟨hs, List.sublist_append_left _ _, hcur, ?_, fun f hf => by cases hf⟩
        rw [List.map_cons]
        unfold Spec.pass
        rw [hver]
        rfl
      | some v =>
        rw [hn] at ho
        rw [ho] at h
        simp only [Option.map_some] at h
        cases hy : currentVisibility k.dyn occ vm (fun a => ⌊g.toMap (s.pose 0) a / (g.r / 2)⌋) e.1 cur with
        | none => rw [hy] at h; cases h
        | some y =>
          have hyb := currentVisibility_eq k occ vm _ e.1 cur hI1 hv' y hy
          rw [hvis] at hyb
          rw [hy] at h
          simp only [hvc] at h
          have hver : Spec.verdict fl.sample g k s occ vm st.content st.abs.allocated S e.1 = some (decide (vm.probPrior ≤ v * y)) := by
            unfold Spec.verdict; simp only [hn, Option.map_some, hyb]
          have hfr : ∀ f, rayFree fl ((k.init (Occ W E)).abs.valid k.dyn) s.ray (rayStart g s.pose) (e :: l) f =
              rayFree fl ((k.init (Occ W E)).abs.valid k.dyn) s.ray (rayStart g s.pose) l (addRay ((k.init (Occ W E)).abs.valid k.dyn) (fl.amount e.2) (Spec.rayOf g k s e.1) f) := by
            intro f; rw [← hray]; rfl
          by_cases hp : vm.probPrior ≤ v * y
          · rw [if_pos hp, update_hit_eq] at h
            cases hu : occAdd k.dyn [hitOf e] cur with
            | none => rw [hu] at h; cases h
            | some cur1 =>
              rw [hu] at h
              simp only [← hsb] at h
              have hcur1 : occAdd k.dyn ((hs ++ [e]).map hitOf) st = some cur1 := by
                rw [List.map_append, occAdd_append, hcur]; exact hu
              obtain ⟨hs', b1, b2, b3, b4⟩ := ih (hs ++ [e]) (by rw [List.append_assoc]; exact hsub) _ cur1 hcur1 o t h
              refine ⟨hs', by rw [List.append_assoc] at b1; exact b1, b2, ?_, fun f hf => (b4 f hf).trans (hfr free).symm⟩
              rw [b3, List.map_cons]
              have : ((hs ++ [e]).map Prod.fst).toFinset = insert e.1 S := by
                ext b; simp [hS]
              rw [this]
              conv_rhs => unfold Spec.pass
              rw [hver, decide_eq_true hp]
          · rw [if_neg hp] at h
            simp only [← hsb] at h
            obtain ⟨hs', b1, b2, b3, b4⟩ := ih hs ((List.Sublist.append (List.Sublist.refl hs) (List.sublist_cons_self e l)).trans hsub) _ cur hcur o t h
            refine ⟨hs', b1.trans (List.Sublist.append (List.Sublist.refl hs) (List.sublist_cons_self e l)), b2, ?_, fun f hf => (b4 f hf).trans (hfr free).symm⟩
            rw [b3, List.map_cons]
            conv_rhs => unfold Spec.pass
            rw [hver, decide_eq_false hp]

omit [Field K] [LinearOrder K] [IsStrictOrderedRing K] [FloorRing K] in
theorem keys_addRay (ok : Idx d → Bool) (n : W) (x : Idx d) : ∀ (cells : List (Idx d)) (free : List (Idx d × W)),
    x ∈ (addRay ok n cells free).map Prod.fst ↔ x ∈ free.map Prod.fst ∨ (x ∈ cells ∧ ok x = true)
  | [], free => by simp [addRay]
  | b :: l, free => by
    have e : addRay ok n (b :: l) free = addRay ok n l (if ok b then upsert 0 (fun w => w + n) b free else free) := rfl
    rw [e, keys_addRay ok n x l, List.mem_cons]
    cases hb : ok b with
    | false =>
      simp only [Bool.false_eq_true, if_false]
      constructor
      · rintro (h | ⟨h, h'⟩)
        · exact Or.inl h
        · exact Or.inr ⟨Or.inr h, h'⟩
      · rintro (h | ⟨h | h, h'⟩)
        · exact Or.inl h
        · rw [h, hb] at h'; cases h'
        · exact Or.inr ⟨h, h'⟩
    | true =>
      rw [if_pos rfl, mem_upsert_keys]
      constructor
      · rintro ((h | h) | ⟨h, h'⟩)
        · exact Or.inr ⟨Or.inl h, h ▸ hb⟩
        · exact Or.inl h
        · exact Or.inr ⟨Or.inr h, h'⟩
      · rintro (h | ⟨h | h, h'⟩)
        · exact Or.inl (Or.inr h)
        · exact Or.inl (Or.inl h)
        · exact Or.inr ⟨h, h'⟩

omit [IsStrictOrderedRing K] [LinearOrder K] [FloorRing K] [Field K] in
theorem keys_rayFree (fl : Flavour K d W E) (ok : Idx d → Bool) (ray : Pt K d → Pt K d → List (Idx d)) (start : Pt K d) (x : Idx d) :
    ∀ (updates : List (Idx d × Multiset E)) (free : List (Idx d × W)),
    x ∈ (rayFree fl ok ray start updates free).map Prod.fst ↔ x ∈ free.map Prod.fst ∨ (ok x = true ∧ ∃ e ∈ updates, x ∈ ray start (fl.mean e.2))
  | [], free => by simp [rayFree]
  | e :: l, free => by
    have h : rayFree fl ok ray start (e :: l) free = rayFree fl ok ray start l (addRay ok (fl.amount e.2) (ray start (fl.mean e.2)) free) := rfl
    rw [h, keys_rayFree fl ok ray start x l, keys_addRay]
    clear h
    constructor
    · rintro ((h | ⟨h, h'⟩) | ⟨h, e', he, h'⟩)
      · exact Or.inl h
      · exact Or.inr ⟨h', e, List.mem_cons_self .., h⟩
      · exact Or.inr ⟨h, e', List.mem_cons_of_mem _ he, h'⟩
    · rintro (h | ⟨h, e', he, h'⟩)
      · exact Or.inl (Or.inl h)
      · rcases List.mem_cons.1 he with rfl | he
        · exact Or.inl (Or.inr ⟨h', h⟩)
        · exact Or.inr ⟨h, e', he, h'⟩

open scoped Classical in
theorem visible_exact (fl : Flavour K d W E) (hmean : ∀ s : Multiset (Pt K d), fl.mean (s.map fl.sample) = Spec.meanOf s) (k : Kind d) (g : Geo K d) (hr : 0 < g.r)
    (defRay : Pt K d → Pt K d → List (Idx d)) (exp : Occ W E → Bool) (st t : St k.backend (Occ W E)) (hst : OccReachable fl k g defRay exp st) (s : Scan K d W)
    (occ : Occ W E → K) (vm : VisModel K) (h : occInsertVisible fl g k.dyn defRay s (some occ) (some vm) st = some t)
    (l : List (Idx d)) (hl : l.Pairwise Spec.Before) (hm : ∀ b, b ∈ l ↔ b ∈ Spec.hitBundles g k s) (S : Finset (Idx d)) (all : Bool)
    (hp : Spec.pass (Spec.verdict fl.sample g k s occ vm st.content st.abs.allocated) l ∅ = (S, all)) :
    (∀ c, c < 2 ^ d → ∀ i,
      ((t.content c i).getD Occ.new).samples = ((st.content c i).getD Occ.new).samples + (Spec.hitsOn g k s S c i).map fl.sample ∧
      ((t.content c i).getD Occ.new).free = ((st.content c i).getD Occ.new).free + (if all then
        ∑ b ∈ Spec.hitBundles g k s, ((Spec.rayOf g k s b).filter fun x => decide (Spec.ValidBundle k x ∧ Spec.BundleInCell g.r x c i ∧
          (true = true → x ∉ Spec.hitBundles g k s))).length • fl.amount ((Spec.hitsIn g k s b).map fl.sample) else 0)) ∧
    t.abs.allocated = st.abs.allocated ∪ ↑S ∪ {x | all = true ∧ Spec.ValidBundle k x ∧ x ∉ Spec.hitBundles g k s ∧ ∃ b ∈ Spec.hitBundles g k s, x ∈ Spec.rayOf g k s b} := by
  have hI := hst.rinv
  have hv : st.valid k.dyn = (k.init (Occ W E)).abs.valid k.dyn := funext hst.keeps.valid
  have hkeys : (occCollect fl g ((k.init (Occ W E)).abs.valid k.dyn) s.pose s.cloud).map Prod.fst =
      (collect g ((k.init (Occ W E)).abs.valid k.dyn) s.pose (s.cloud.filter fun p => g.normal p)).map Prod.fst := by
    unfold occCollect; rw [List.map_map]; rfl
  have hmk : ∀ b, b ∈ Spec.hitBundles g k s ↔ b ∈ (occCollect fl g ((k.init (Occ W E)).abs.valid k.dyn) s.pose s.cloud).map Prod.fst := by
    intro b; rw [mem_hitBundles (Occ W E) g hr, hkeys]
  have hlk : (occCollect fl g ((k.init (Occ W E)).abs.valid k.dyn) s.pose s.cloud).map Prod.fst = l := by
    refine sorted_unique ?_ hl fun b => ((hm b).trans (hmk b)).symm
    rw [hkeys]
    exact (collect_sorted g _ s.pose _).imp fun h => (lexLt_iff_before _ _).1 h
  have hray : ∀ e ∈ occCollect fl g ((k.init (Occ W E)).abs.valid k.dyn) s.pose s.cloud, s.ray (rayStart g s.pose) (fl.mean e.2) = Spec.rayOf g k s e.1 := by
    intro e hem
    obtain ⟨x, hx, hxe⟩ := List.mem_map.1 hem
    rw [← hxe]
    simp only
    rw [collect_value g _ s.pose _ x hx, hitsIn_eq (Occ W E) g hr k s x.1, hmean]
    rfl
  simp only [occInsertVisible, hv] at h
  cases hw : visHits fl k.dyn s.ray occ vm (rayStart g s.pose) (toBundleIndex g.r (rayStart g s.pose)) (occCollect fl g ((k.init (Occ W E)).abs.valid k.dyn) s.pose s.cloud) [] st with
  | none => rw [hw] at h; cases h
  | some q =>
    obtain ⟨o, st1⟩ := q
    obtain ⟨hs, b1, b2, b3, b4⟩ := visHits_exact fl hmean k g hr st hI hv s occ vm _ [] (by rw [List.nil_append]) [] st rfl o st1 hw
    rw [List.nil_append] at b1
    have b3' := b3
    rw [hlk, show (([] : List (Idx d × Multiset E)).map Prod.fst).toFinset = ∅ from rfl, hp] at b3'
    have hS : (hs.map Prod.fst).toFinset = S := congrArg Prod.fst b3'
    have hall : o.isSome = all := congrArg Prod.snd b3'
    have hk : (hs.map (hitOf : _ → Idx d × Occ W E)).map Prod.fst = hs.map Prod.fst := by rw [List.map_map]; rfl
    rw [hw] at h
    cases o with
    | none =>
      have hall' : all = false := hall.symm
      subst hall'
      obtain rfl : st1 = t := Option.some.inj h
      refine ⟨fun c hc i => ?_, ?_⟩
      · have := visible_contents fl hmean k g hr st st1 hI s hs b1 false (by rw [if_neg (by simp), List.append_nil]; exact b2) c hc i
        rw [hS] at this
        exact this
      · rw [(recorded_spec fl hmean k g hr st st1 hI s hs b1 b2).2, hS]
        ext x; simp
    | some f =>
      have hall' : all = true := hall.symm
      subst hall'
      have hcase : occAdd k.dyn (hs.map hitOf ++ if true then (insertFree fl g ((k.init (Occ W E)).abs.valid k.dyn) true s).map missOf else []) st = some t := by
        simp only [occFree_eq] at h
        rw [if_pos rfl, occAdd_append, b2, Option.bind_some, ← h, b4 f rfl]
        rfl
      refine ⟨fun c hc i => ?_, ?_⟩
      · have := visible_contents fl hmean k g hr st t hI s hs b1 true hcase c hc i
        rw [hS] at this
        exact this
      · rw [if_pos rfl] at hcase
        have h4 := (occAdd_spec k.lawful k.dyn _ st t hI hcase).2.2.2.1
        have hfree : ∀ x, x ∈ ((insertFree fl g ((k.init (Occ W E)).abs.valid k.dyn) true s).map (missOf : _ → Idx d × Occ W E)).map Prod.fst ↔
            Spec.ValidBundle k x ∧ x ∉ Spec.hitBundles g k s ∧ ∃ b ∈ Spec.hitBundles g k s, x ∈ Spec.rayOf g k s b := by
          intro x
          have hp := (s.order_perm (eraseKeys (occCollect fl g ((k.init (Occ W E)).abs.valid k.dyn) s.pose s.cloud)
            (rayFree fl ((k.init (Occ W E)).abs.valid k.dyn) s.ray (rayStart g s.pose) (occCollect fl g ((k.init (Occ W E)).abs.valid k.dyn) s.pose s.cloud) []))).map Prod.fst
          have e1 : ((insertFree fl g ((k.init (Occ W E)).abs.valid k.dyn) true s).map (missOf : _ → Idx d × Occ W E)).map Prod.fst =
              (insertFree fl g ((k.init (Occ W E)).abs.valid k.dyn) true s).map Prod.fst := by rw [List.map_map]; rfl
          rw [e1]
          refine (hp.mem_iff (a := x)).trans ?_
          unfold eraseKeys
          have hr' := keys_rayFree fl ((k.init (Occ W E)).abs.valid k.dyn) s.ray (rayStart g s.pose) x (occCollect fl g ((k.init (Occ W E)).abs.valid k.dyn) s.pose s.cloud) []
          constructor
          · intro hx
            obtain ⟨y, hy, rfl⟩ := List.mem_map.1 hx
            obtain ⟨hy1, hy2⟩ := List.mem_filter.1 hy
            rcases hr'.1 (List.mem_map.2 ⟨y, hy1, rfl⟩) with h0 | ⟨h0, e, he, hxe⟩
            · cases h0
            · refine ⟨(validBundle_iff (Occ W E) k _).1 h0, ?_, e.1, (hmk _).2 (List.mem_map.2 ⟨e, he, rfl⟩), by rw [← hray e he]; exact hxe⟩
              rw [hmk]
              simpa using hy2
          · rintro ⟨h0, h1, b, hb, hxb⟩
            obtain ⟨e, he, rfl⟩ := List.mem_map.1 ((hmk b).1 hb)
            obtain ⟨y, hy, rfl⟩ := List.mem_map.1 (hr'.2 (Or.inr ⟨(validBundle_iff (Occ W E) k _).2 h0, e, he, by rw [hray e he]; exact hxb⟩))
            refine List.mem_map.2 ⟨y, List.mem_filter.2 ⟨hy, ?_⟩, rfl⟩
            rw [hmk] at h1
            simpa using h1
        ext x
        rw [Abs.mem_allocated, h4 x, List.map_append, hk]
        have hS' : x ∈ hs.map Prod.fst ↔ x ∈ S := by rw [← hS, List.mem_toFinset]
        by_cases hx : x ∈ hs.map Prod.fst ++ ((insertFree fl g ((k.init (Occ W E)).abs.valid k.dyn) true s).map (missOf : _ → Idx d × Occ W E)).map Prod.fst
        · rw [if_pos hx]
          refine ⟨fun _ => ?_, fun _ => rfl⟩
          rcases List.mem_append.1 hx with hx | hx
          · exact Or.inl (Or.inr (hS'.1 hx))
          · exact Or.inr ⟨rfl, (hfree x).1 hx⟩
        · rw [if_neg hx]
          refine ⟨fun h => Or.inl (Or.inl h), ?_⟩
          rintro ((h | h) | ⟨_, h⟩)
          · exact h
          · exact absurd (List.mem_append.2 (Or.inl (hS'.2 h))) hx
          · exact absurd (List.mem_append.2 (Or.inr ((hfree x).2 h))) hx

end

section
variable {K : Type} [Field K] [LinearOrder K] [IsStrictOrderedRing K] [FloorRing K] {d : Nat}

/-- **C29** (partial, occupancy maps). The exact outcome of `insertVisible` on every reachable map, for all scans. `l` are the hit bundles in lexicographic order. One pass over `l`
decides: the ray of a bundle is walked in the map with the hits of the bundles accepted so far; if the visibility falls below the prior on the way, the pass ends (`Spec.verdict`,
`Spec.pass`). `S` are the accepted bundles, `all` tells if the pass got to the end. Exactly the hits in the bundles `S` are added. The misses of all rays are added if the pass got to the
end, and none otherwise. Bundles are allocated for the accepted hits and, if the pass got to the end, for the valid ray cells that are no hit bundles. Missing: rays are independent of
each other, which is false (`C29_independent_rays_refuted`). -/
theorem C29_occupancy_exact_partial (k : Kind d) (g : Geo K d) (hr : 0 < g.r) (defRay : Pt K d → Pt K d → List (Idx d)) (exp : Occ Nat (Pt K d) → Bool)
    (st t : St k.backend (Occ Nat (Pt K d))) (hst : OccReachable (occFlavour K d) k g defRay exp st) (s : Scan K d Nat) (occ : Occ Nat (Pt K d) → K) (vm : VisModel K)
    (h : occInsertVisible (occFlavour K d) g k.dyn defRay s (some occ) (some vm) st = some t)
    (l : List (Idx d)) (hl : l.Pairwise Spec.Before) (hm : ∀ b, b ∈ l ↔ b ∈ Spec.hitBundles g k s) (S : Finset (Idx d)) (all : Bool)
    (hp : Spec.pass (Spec.verdict id g k s occ vm st.content st.abs.allocated) l ∅ = (S, all)) :
    (∀ c, c < 2 ^ d → ∀ i,
      ((t.content c i).getD Occ.new).samples = ((st.content c i).getD Occ.new).samples + Spec.hitsOn g k s S c i ∧
      ((t.content c i).getD Occ.new).numFree = ((st.content c i).getD Occ.new).numFree + (if all then Spec.misses true g k s c i else 0)) ∧
    t.abs.allocated = st.abs.allocated ∪ ↑S ∪ {x | all = true ∧ Spec.ValidBundle k x ∧ x ∉ Spec.hitBundles g k s ∧ ∃ b ∈ Spec.hitBundles g k s, x ∈ Spec.rayOf g k s b} := by
  obtain ⟨h1, h2⟩ := visible_exact (occFlavour K d) occFlavour_mean k g hr defRay exp st t hst s occ vm h l hl hm S all hp
  refine ⟨fun c hc i => ?_, h2⟩
  obtain ⟨h3, h4⟩ := h1 c hc i
  rw [show (occFlavour K d).sample = id from rfl, Multiset.map_id] at h3
  refine ⟨h3, ?_⟩
  unfold Occ.numFree
  rw [h4]
  refine congrArg₂ (· + ·) rfl ?_
  unfold Spec.misses
  cases all
  · rfl
  · simp only [if_true]
    refine Finset.sum_congr rfl fun b _ => ?_
    rw [smul_eq_mul, show (occFlavour K d).sample = id from rfl, Multiset.map_id]
    rfl

/-- **C29** (partial, weighted maps): as `C29_occupancy_exact_partial`; every point has weight 1. -/
theorem C29_weighted_exact_partial (k : Kind d) (g : Geo K d) (hr : 0 < g.r) (defRay : Pt K d → Pt K d → List (Idx d)) (exp : Occ K (Pt K d × K) → Bool)
    (st t : St k.backend (Occ K (Pt K d × K))) (hst : OccReachable (weightedFlavour K d) k g defRay exp st) (s : Scan K d K) (occ : Occ K (Pt K d × K) → K) (vm : VisModel K)
    (h : occInsertVisible (weightedFlavour K d) g k.dyn defRay s (some occ) (some vm) st = some t)
    (l : List (Idx d)) (hl : l.Pairwise Spec.Before) (hm : ∀ b, b ∈ l ↔ b ∈ Spec.hitBundles g k s) (S : Finset (Idx d)) (all : Bool)
    (hp : Spec.pass (Spec.verdict (fun p => (p, 1)) g k s occ vm st.content st.abs.allocated) l ∅ = (S, all)) :
    (∀ c, c < 2 ^ d → ∀ i,
      ((t.content c i).getD Occ.new).samples = ((st.content c i).getD Occ.new).samples + (Spec.hitsOn g k s S c i).map (fun p => (p, 1)) ∧
      ((t.content c i).getD Occ.new).numFree = ((st.content c i).getD Occ.new).numFree + ((if all then Spec.misses true g k s c i else 0 : Nat) : K)) ∧
    t.abs.allocated = st.abs.allocated ∪ ↑S ∪ {x | all = true ∧ Spec.ValidBundle k x ∧ x ∉ Spec.hitBundles g k s ∧ ∃ b ∈ Spec.hitBundles g k s, x ∈ Spec.rayOf g k s b} := by
  obtain ⟨h1, h2⟩ := visible_exact (weightedFlavour K d) weightedFlavour_mean k g hr defRay exp st t hst s occ vm h l hl hm S all hp
  refine ⟨fun c hc i => ?_, h2⟩
  obtain ⟨h3, h4⟩ := h1 c hc i
  refine ⟨h3, ?_⟩
  unfold Occ.numFree
  rw [h4]
  refine congrArg₂ (· + ·) rfl ?_
  unfold Spec.misses
  cases all
  · simp
  · simp only [if_true]
    rw [Nat.cast_sum]
    refine Finset.sum_congr rfl fun b _ => ?_
    rw [weightedFlavour_amount, nsmul_eq_mul, Nat.cast_mul]

/-- the list of hit bundles that `C29_occupancy_exact_partial` asks for exists for every scan, and there is only one -/
theorem C29_hit_bundles_order {W : Type} [AddCommMonoid W] (k : Kind d) (g : Geo K d) (hr : 0 < g.r) (s : Scan K d W) :
    ∃! l : List (Idx d), l.Pairwise Spec.Before ∧ ∀ b, b ∈ l ↔ b ∈ Spec.hitBundles g k s := by
  refine ⟨(collect g ((k.init (Occ Nat Nat)).abs.valid k.dyn) s.pose (s.cloud.filter fun p => g.normal p)).map Prod.fst, ⟨?_, fun b => ?_⟩, fun l hl => ?_⟩
  · exact (collect_sorted g _ s.pose _).imp fun h => (lexLt_iff_before _ _).1 h
  · exact (mem_hitBundles (Occ Nat Nat) g hr k s b).symm
  · refine sorted_unique hl.1 ((collect_sorted g _ s.pose _).imp fun h => (lexLt_iff_before _ _).1 h) fun b => (hl.2 b).trans ?_
    exact mem_hitBundles (Occ Nat Nat) g hr k s b

/-! ### C67 for all scans -/

/-- The passes over the same list agree if the verdicts do. -/
theorem pass_congr (v v' : Finset (Idx d) → Idx d → Option Bool) : ∀ (l : List (Idx d)) (S : Finset (Idx d)), (∀ b ∈ l, ∀ S, v S b = v' S b) → Spec.pass v l S = Spec.pass v' l S
  | [], _, _ => rfl
  | b :: l, S, h => by
    unfold Spec.pass
    rw [h b (List.mem_cons_self ..) S, pass_congr v v' l _ fun x hx => h x (List.mem_cons_of_mem _ hx), pass_congr v v' l _ fun x hx => h x (List.mem_cons_of_mem _ hx)]

/-- The verdict on `b` depends on the bundles `towards` the origin only: which of them are allocated and what their distributions hold. -/
theorem verdict_congr {W E : Type} [AddCommMonoid W] (sample : Pt K d → E) (g : Geo K d) (k : Kind d) (s : Scan K d W) (occ : Occ W E → K) (vm : VisModel K)
    (content content' : Nat → Idx d → Option (Occ W E)) (alloc alloc' : Set (Idx d)) (sb : Idx d) (hsb : (fun a => ⌊g.toMap (s.pose 0) a / (g.r / 2)⌋) = sb) (b : Idx d)
    (h : ∀ x, x = b ∨ x ∈ Spec.rayOf g k s b → ∀ a, Spec.ValidBundle k (Spec.towards sb x a) →
      (Spec.towards sb x a ∈ alloc ↔ Spec.towards sb x a ∈ alloc') ∧
      ∀ c < 2 ^ d, (content c (Spec.binCell (Spec.towards sb x a) c)).getD Occ.new = (content' c (Spec.binCell (Spec.towards sb x a) c)).getD Occ.new) (S : Finset (Idx d)) :
    Spec.verdict sample g k s occ vm content alloc S b = Spec.verdict sample g k s occ vm content' alloc' S b := by
  have hv : ∀ x, x = b ∨ x ∈ Spec.rayOf g k s b → Spec.visibility k occ vm (Spec.recorded sample g k s content S) (alloc ∪ ↑S) sb x =
      Spec.visibility k occ vm (Spec.recorded sample g k s content' S) (alloc' ∪ ↑S) sb x := by
    intro x hx
    refine visibility_congr k occ vm _ _ _ _ sb x fun a ha => ?_
    obtain ⟨h1, h2⟩ := h x hx a ha
    have h3 : Spec.towards sb x a ∈ alloc ∪ (↑S : Set (Idx d)) ↔ Spec.towards sb x a ∈ alloc' ∪ (↑S : Set (Idx d)) := or_congr h1 Iff.rfl
    unfold Spec.bundleOcc
    by_cases hm : Spec.towards sb x a ∈ alloc ∪ (↑S : Set (Idx d))
    · rw [if_pos hm, if_pos (h3.1 hm)]
      refine congrArg (· / _) (Finset.sum_congr rfl fun c hc => ?_)
      unfold Spec.recorded
      rw [h2 c (Finset.mem_range.1 hc)]
    · rw [if_neg hm, if_neg fun h' => hm (h3.2 h')]
  unfold Spec.verdict
  simp only [hsb]
  rw [walk_congr vm.probPrior _ _ (Spec.rayOf g k s b) 1 fun x hx => hv x (Or.inr hx), hv b (Or.inl rfl)]

/-- **C67** (partial, occupancy maps, all scans). Two reachable maps, of any two histories, that agree on the faces toward the origin of all hit bundles and of all bundles on the rays:
the same of these faces are allocated and their distributions hold the same. The same scan, with any number of hit bundles, changes both maps in the same way: everywhere the same samples
and the same free counts are added. Missing: faces of bundles that share a coordinate with the origin do not lie between the bundle and the origin (`C67_only_between_refuted`). -/
theorem C67_occupancy_all_scans_partial (k : Kind d) (g : Geo K d) (hr : 0 < g.r) (defRay : Pt K d → Pt K d → List (Idx d)) (exp : Occ Nat (Pt K d) → Bool)
    (st t st' t' : St k.backend (Occ Nat (Pt K d))) (hst : OccReachable (occFlavour K d) k g defRay exp st) (hst' : OccReachable (occFlavour K d) k g defRay exp st')
    (s : Scan K d Nat) (occ : Occ Nat (Pt K d) → K) (vm : VisModel K)
    (h : occInsertVisible (occFlavour K d) g k.dyn defRay s (some occ) (some vm) st = some t)
    (h' : occInsertVisible (occFlavour K d) g k.dyn defRay s (some occ) (some vm) st' = some t') (sb : Idx d) (hsb : Spec.InBundle g.r sb (g.toMap (s.pose 0)))
    (hag : ∀ b ∈ Spec.hitBundles g k s, ∀ x, x = b ∨ x ∈ Spec.rayOf g k s b → ∀ a, Spec.ValidBundle k (Spec.towards sb x a) →
      (Spec.towards sb x a ∈ st.abs.allocated ↔ Spec.towards sb x a ∈ st'.abs.allocated) ∧
      ∀ c < 2 ^ d, (st.content c (Spec.binCell (Spec.towards sb x a) c)).getD Occ.new = (st'.content c (Spec.binCell (Spec.towards sb x a) c)).getD Occ.new) :
    ∃ (hit : Nat → Idx d → Multiset (Pt K d)) (free : Nat → Idx d → Nat), ∀ c, c < 2 ^ d → ∀ i,
      ((t.content c i).getD Occ.new).samples = ((st.content c i).getD Occ.new).samples + hit c i ∧
      ((t'.content c i).getD Occ.new).samples = ((st'.content c i).getD Occ.new).samples + hit c i ∧
      ((t.content c i).getD Occ.new).numFree = ((st.content c i).getD Occ.new).numFree + free c i ∧
      ((t'.content c i).getD Occ.new).numFree = ((st'.content c i).getD Occ.new).numFree + free c i := by
  have hsb' : (fun a => ⌊g.toMap (s.pose 0) a / (g.r / 2)⌋) = sb := by
    rw [floor_bundle]; exact (C01_bundle_contains_point hr _ sb).2 hsb
  obtain ⟨l, ⟨hl, hm⟩, -⟩ := C29_hit_bundles_order k g hr s
  have hp := pass_congr (Spec.verdict id g k s occ vm st.content st.abs.allocated) (Spec.verdict id g k s occ vm st'.content st'.abs.allocated) l ∅
    fun b hb S => verdict_congr id g k s occ vm _ _ _ _ sb hsb' b (hag b ((hm b).1 hb)) S
  obtain ⟨h1, -⟩ := C29_occupancy_exact_partial k g hr defRay exp st t hst s occ vm h l hl hm _ _ rfl
  obtain ⟨h2, -⟩ := C29_occupancy_exact_partial k g hr defRay exp st' t' hst' s occ vm h' l hl hm _ _ rfl
  rw [← hp] at h2
  exact ⟨_, _, fun c hc i => ⟨(h1 c hc i).1, (h2 c hc i).1, (h1 c hc i).2, (h2 c hc i).2⟩⟩

/-- **C67** (partial, weighted maps, all scans): as `C67_occupancy_all_scans_partial`. -/
theorem C67_weighted_all_scans_partial (k : Kind d) (g : Geo K d) (hr : 0 < g.r) (defRay : Pt K d → Pt K d → List (Idx d)) (exp : Occ K (Pt K d × K) → Bool)
    (st t st' t' : St k.backend (Occ K (Pt K d × K))) (hst : OccReachable (weightedFlavour K d) k g defRay exp st) (hst' : OccReachable (weightedFlavour K d) k g defRay exp st')
    (s : Scan K d K) (occ : Occ K (Pt K d × K) → K) (vm : VisModel K)
    (h : occInsertVisible (weightedFlavour K d) g k.dyn defRay s (some occ) (some vm) st = some t)
    (h' : occInsertVisible (weightedFlavour K d) g k.dyn defRay s (some occ) (some vm) st' = some t') (sb : Idx d) (hsb : Spec.InBundle g.r sb (g.toMap (s.pose 0)))
    (hag : ∀ b ∈ Spec.hitBundles g k s, ∀ x, x = b ∨ x ∈ Spec.rayOf g k s b → ∀ a, Spec.ValidBundle k (Spec.towards sb x a) →
      (Spec.towards sb x a ∈ st.abs.allocated ↔ Spec.towards sb x a ∈ st'.abs.allocated) ∧
      ∀ c < 2 ^ d, (st.content c (Spec.binCell (Spec.towards sb x a) c)).getD Occ.new = (st'.content c (Spec.binCell (Spec.towards sb x a) c)).getD Occ.new) :
    ∃ (hit : Nat → Idx d → Multiset (Pt K d × K)) (free : Nat → Idx d → K), ∀ c, c < 2 ^ d → ∀ i,
      ((t.content c i).getD Occ.new).samples = ((st.content c i).getD Occ.new).samples + hit c i ∧
      ((t'.content c i).getD Occ.new).samples = ((st'.content c i).getD Occ.new).samples + hit c i ∧
      ((t.content c i).getD Occ.new).numFree = ((st.content c i).getD Occ.new).numFree + free c i ∧
      ((t'.content c i).getD Occ.new).numFree = ((st'.content c i).getD Occ.new).numFree + free c i := by
  have hsb' : (fun a => ⌊g.toMap (s.pose 0) a / (g.r / 2)⌋) = sb := by
    rw [floor_bundle]; exact (C01_bundle_contains_point hr _ sb).2 hsb
  obtain ⟨l, ⟨hl, hm⟩, -⟩ := C29_hit_bundles_order k g hr s
  have hp := pass_congr (Spec.verdict (fun p => (p, 1)) g k s occ vm st.content st.abs.allocated) (Spec.verdict (fun p => (p, 1)) g k s occ vm st'.content st'.abs.allocated) l ∅
    fun b hb S => verdict_congr (fun p => (p, 1)) g k s occ vm _ _ _ _ sb hsb' b (hag b ((hm b).1 hb)) S
  obtain ⟨h1, -⟩ := C29_weighted_exact_partial k g hr defRay exp st t hst s occ vm h l hl hm _ _ rfl
  obtain ⟨h2, -⟩ := C29_weighted_exact_partial k g hr defRay exp st' t' hst' s occ vm h' l hl hm _ _ rfl
  rw [← hp] at h2
  exact ⟨_, _, fun c hc i => ⟨(h1 c hc i).1, (h2 c hc i).1, (h1 c hc i).2, (h2 c hc i).2⟩⟩

end

/-! ### Non-vacuity -/

theorem before_AB : Spec.Before (![1, 0] : Idx 2) ![2, 0] := ⟨0, fun a h => absurd h (Fin.not_lt_zero a), by decide⟩

theorem histTwo_runs : (occInsertVisible (occFlavour ℚ 2) unitGeo visKind.dyn xRay (visScan Nat [pA, pB] xRay) (some hitOcc) (some visVm) histNearMap).isSome = true := by
  decide +kernel

/-- a reachable map with a hit, a scan with two hit bundles: all hypotheses of `C29_occupancy_exact_partial` are met -/
example : ∃ t S all, OccReachable (occFlavour ℚ 2) visKind unitGeo xRay (fun _ => true) histNearMap ∧
    occInsertVisible (occFlavour ℚ 2) unitGeo visKind.dyn xRay (visScan Nat [pA, pB] xRay) (some hitOcc) (some visVm) histNearMap = some t ∧
    ([![1, 0], ![2, 0]] : List (Idx 2)).Pairwise Spec.Before ∧
    (∀ b, b ∈ ([![1, 0], ![2, 0]] : List (Idx 2)) ↔ b ∈ Spec.hitBundles unitGeo visKind (visScan Nat [pA, pB] xRay)) ∧
    Spec.pass (Spec.verdict id unitGeo visKind (visScan Nat [pA, pB] xRay) hitOcc visVm histNearMap.content histNearMap.abs.allocated) [![1, 0], ![2, 0]] ∅ = (S, all) := by
  obtain ⟨t, ht⟩ := Option.isSome_iff_exists.1 histTwo_runs
  refine ⟨t, _, _, histNear_reachable, ht, ?_, fun b => ?_, rfl⟩
  · exact List.pairwise_pair.2 before_AB
  · rw [mem_visScan_hitBundles Nat [pA, pB] xRay (by simp)]
    simp [tb_pA, tb_pB, eq_comm]

theorem histTwoFar_runs : (occInsertVisible (occFlavour ℚ 2) unitGeo visKind.dyn xRay (visScan Nat [pA, pB] xRay) (some hitOcc) (some visVm) histFarMap).isSome = true := by
  decide +kernel

/-- the hypotheses of `C67_occupancy_all_scans_partial` hold for a scan with two hit bundles and two maps that differ in the bundle (-4,0) -/
example : ∃ t t', OccReachable (occFlavour ℚ 2) visKind unitGeo xRay (fun _ => true) histNearMap ∧ OccReachable (occFlavour ℚ 2) visKind unitGeo xRay (fun _ => true) histFarMap ∧
    occInsertVisible (occFlavour ℚ 2) unitGeo visKind.dyn xRay (visScan Nat [pA, pB] xRay) (some hitOcc) (some visVm) histNearMap = some t ∧
    occInsertVisible (occFlavour ℚ 2) unitGeo visKind.dyn xRay (visScan Nat [pA, pB] xRay) (some hitOcc) (some visVm) histFarMap = some t' ∧
    Spec.InBundle unitGeo.r ![0, 0] (unitGeo.toMap ((visScan Nat [pA, pB] xRay).pose 0)) ∧
    (∀ b ∈ Spec.hitBundles unitGeo visKind (visScan Nat [pA, pB] xRay), ∀ x, x = b ∨ x ∈ Spec.rayOf unitGeo visKind (visScan Nat [pA, pB] xRay) b → ∀ a,
      Spec.ValidBundle visKind (Spec.towards ![0, 0] x a) →
      (Spec.towards ![0, 0] x a ∈ histNearMap.abs.allocated ↔ Spec.towards ![0, 0] x a ∈ histFarMap.abs.allocated) ∧
      ∀ c < 2 ^ 2, (histNearMap.content c (Spec.binCell (Spec.towards ![0, 0] x a) c)).getD Occ.new = (histFarMap.content c (Spec.binCell (Spec.towards ![0, 0] x a) c)).getD Occ.new) ∧
    histNearMap.content 0 ![-2, 0] ≠ histFarMap.content 0 ![-2, 0] := by
  have hcl : ∀ p ∈ [pA, pB], p = pA ∨ p = pB ∨ p = pC := by simp
  have hrA : Spec.rayOf unitGeo visKind (visScan Nat [pA, pB] xRay) ![1, 0] = [![0, 0]] := by
    unfold Spec.rayOf
    rw [visScan_hitsIn Nat _ _ hcl]
    have : ([pA, pB].filter fun p => decide (toBundleIndex 2 p = ![1, 0])) = [pA] := by
      rw [List.filter_cons, if_pos (by rw [tb_pA]; decide), List.filter_cons, if_neg (by rw [tb_pB]; decide)]; rfl
    rw [this, show (([pA] : List (Pt ℚ 2)) : Multiset (Pt ℚ 2)) = {pA} from rfl, meanOf_single]
    exact xRay_pA 0
  have hrB : Spec.rayOf unitGeo visKind (visScan Nat [pA, pB] xRay) ![2, 0] = [![0, 0], ![1, 0]] := by
    unfold Spec.rayOf
    rw [visScan_hitsIn Nat _ _ hcl]
    have : ([pA, pB].filter fun p => decide (toBundleIndex 2 p = ![2, 0])) = [pB] := by
      rw [List.filter_cons, if_neg (by rw [tb_pA]; decide), List.filter_cons, if_pos (by rw [tb_pB]; decide)]; rfl
    rw [this, show (([pB] : List (Pt ℚ 2)) : Multiset (Pt ℚ 2)) = {pB} from rfl, meanOf_single]
    exact xRay_pB 0
  have hag : ∀ x ∈ [(![0, 0] : Idx 2), ![1, 0], ![2, 0]], ∀ a,
      (Spec.towards ![0, 0] x a ∈ histNearMap.abs.allocated ↔ Spec.towards ![0, 0] x a ∈ histFarMap.abs.allocated) ∧
      ∀ c < 2 ^ 2, (histNearMap.content c (Spec.binCell (Spec.towards ![0, 0] x a) c)).getD Occ.new = (histFarMap.content c (Spec.binCell (Spec.towards ![0, 0] x a) c)).getD Occ.new := by
    intro x hx a
    rw [Abs.mem_allocated, Abs.mem_allocated]
    revert x a
    decide +kernel
  refine ⟨_, _, histNear_reachable, ⟨histFar, (Option.some_get _).symm⟩, (Option.some_get histTwo_runs).symm, (Option.some_get histTwoFar_runs).symm, ?_, ?_, ?_⟩
  · intro a; fin_cases a <;> norm_num [unitGeo, visScan]
  · intro b hb x hx a _
    refine hag x ?_ a
    rw [mem_visScan_hitBundles Nat [pA, pB] xRay hcl] at hb
    simp only [List.mem_cons, List.not_mem_nil, or_false, exists_eq_or_imp, exists_eq_left, tb_pA, tb_pB] at hb
    rcases hb with rfl | rfl
    · rw [hrA] at hx
      rcases hx with rfl | hx
      · simp
      · rw [List.mem_singleton.1 hx]; simp
    · rw [hrB] at hx
      rcases hx with rfl | hx
      · simp
      · simp only [List.mem_cons, List.not_mem_nil, or_false] at hx ⊢
        tauto
  · intro h
    have : (histNearMap.content 0 ![-2, 0]).isSome = (histFarMap.content 0 ![-2, 0]).isSome := by rw [h]
    revert this
    decide +kernel

end Ndt
