import Verif.Props.OccHistory
import Verif.Spec.OccRange
import Verif.Proofs.GridmapMore

/-! Histories of dynamic occupancy maps stay within the index range of the octree (C51). -/

namespace Ndt
open St Abs

section
variable {K : Type} [Field K] [LinearOrder K] [FloorRing K] {d : Nat} {W E : Type} [AddCommMonoid W]

section total
variable {B : Backend d} {D : Type} [Inhabited D] (L : B.Lawful) (dyn : Bool)

theorem occlusionProb_total' (occ : D → K) (startBi bi : Idx d) (st : St B D) (hI : RInv L dyn st)
    (hv : ∀ c, st.valid dyn (occlusionIndex startBi bi c) = true → st.abs.Good (occlusionIndex startBi bi c)) :
    ∀ (l : List (Fin d)) (x : K), ∃ y, occlusionProb dyn occ startBi bi st l x = some y
  | [], x => ⟨x, rfl⟩
  | c :: l, x => by
    unfold occlusionProb
    by_cases h : st.valid dyn (occlusionIndex startBi bi c) = true
    · rw [if_pos h]
      obtain ⟨h1, h2⟩ := bundleOccupancy_spec L dyn occ _ st hI (hv _ h).1 h
      by_cases ha : occlusionIndex startBi bi c ∈ st.abs.allocated
      · rw [h1 ha]; exact occlusionProb_total' occ startBi bi st hI hv l _
      · rw [h2 ha]; exact occlusionProb_total' occ startBi bi st hI hv l _
    · rw [if_neg h]; exact occlusionProb_total' occ startBi bi st hI hv l _

theorem currentVisibility_total' (occ : D → K) (vm : VisModel K) (startBi bi : Idx d) (st : St B D) (hI : RInv L dyn st)
    (hv : ∀ c, st.valid dyn (occlusionIndex startBi bi c) = true → st.abs.Good (occlusionIndex startBi bi c)) : ∃ y, currentVisibility dyn occ vm startBi bi st = some y := by
  obtain ⟨y, hy⟩ := occlusionProb_total' L dyn occ startBi bi st hI hv (List.finRange d) 1
  unfold currentVisibility; rw [hy]; exact ⟨_, rfl⟩

theorem visRay_total' (occ : D → K) (vm : VisModel K) (startBi : Idx d) (n : W) (st : St B D) (hI : RInv L dyn st) :
    ∀ (cells : List (Idx d)) (_ : ∀ bi ∈ cells, ∀ c, st.valid dyn (occlusionIndex startBi bi c) = true → st.abs.Good (occlusionIndex startBi bi c))
      (v : K) (free : List (Idx d × W)), ∃ y, visRay dyn occ vm startBi n st cells v free = some y
  | [], _, v, free => ⟨_, rfl⟩
  | bi :: l, hv, v, free => by
    obtain ⟨cv, hc⟩ := currentVisibility_total' L dyn occ vm startBi bi st hI (hv bi (List.mem_cons_self ..))
    unfold visRay
    rw [hc]
    simp only
    split
    · exact ⟨_, rfl⟩
    · exact visRay_total' occ vm startBi n st hI l (fun b hb => hv b (List.mem_cons_of_mem _ hb)) _ _

end total

theorem visHits_total' {B : Backend d} (L : B.Lawful) (dyn : Bool) (fl : Flavour K d W E) (ray : Pt K d → Pt K d → List (Idx d)) (occ : Occ W E → K) (vm : VisModel K)
    (start : Pt K d) (startBi : Idx d) :
    ∀ (updates : List (Idx d × Multiset E)) (free : List (Idx d × W)) (st : St B (Occ W E)), RInv L dyn st →
    (∀ e ∈ updates, st.abs.Good e.1 ∧ (∀ c, st.abs.Good (occlusionIndex startBi e.1 c)) ∧ ∀ bi ∈ ray start (fl.mean e.2), ∀ c, st.abs.Good (occlusionIndex startBi bi c)) →
    ∃ y, visHits fl dyn ray occ vm start startBi updates free st = some y
  | [], free, st, _, _ => ⟨_, rfl⟩
  | e :: l, free, st, hI, hu => by
    unfold visHits
    obtain ⟨u1, u2, u3⟩ := hu e (List.mem_cons_self ..)
    obtain ⟨y, hy⟩ := visRay_total' L dyn occ vm startBi (fl.amount e.2) st hI (ray start (fl.mean e.2)) (fun b hb c _ => u3 b hb c) 1 free
    rw [hy]
    cases y with
    | none => exact ⟨_, rfl⟩
    | some y =>
      obtain ⟨cv, hc⟩ := currentVisibility_total' L dyn occ vm startBi e.1 st hI fun c _ => u2 c
      simp only [hc]
      split
      · rw [update_hit_eq]
        obtain ⟨st1, h1⟩ := occAdd_total L dyn [hitOf e] st hI (by
          intro e' he'
          rw [List.mem_singleton.1 he']
          exact u1)
        obtain ⟨a1, a2, _⟩ := occAdd_spec L dyn _ st st1 hI h1
        rw [h1]
        refine visHits_total' L dyn fl ray occ vm start startBi l _ st1 a1 fun e' he' => ?_
        obtain ⟨w1, w2, w3⟩ := hu e' (List.mem_cons_of_mem _ he')
        exact ⟨(a2.good _).2 w1, fun c => (a2.good _).2 (w2 c), fun b hb c => (a2.good _).2 (w3 b hb c)⟩
      · exact visHits_total' L dyn fl ray occ vm start startBi l _ st hI (fun e' he' => hu e' (List.mem_cons_of_mem _ he'))

theorem coreStep_range {D : Type} [Inhabited D] (exp : D → Bool) (gb : Nat → Nat) (gb' : Nat) (op : CoreOp d) (st : St (octreeBackend d) D) (hI : RInv (octreeLawful d) true st)
    (hk : Keeps true ((Kind.dynamic gb gb').init D).abs st.abs) (n m : Int) (hop : CoreWithin n op) (hnm : n ≤ m) (hw : Within m st.abs.allocated) (hm : m + (op.expands : Int) ≤ 32767) :
    ∃ st', coreStep true exp op st = some st' ∧ Within (m + (op.expands : Int)) st'.abs.allocated := by
  have hgood : ∀ bi, (∀ a, |bi a| ≤ m + (op.expands : Int)) → st.abs.Good bi := fun bi hb =>
    (hk.good bi).2 (dynamic_good _ gb gb' bi (inRange_of_abs hm hb))
  cases op with
  | bundleAt bi =>
    have hg : st.abs.Good bi := hgood bi (fun a => by have := hop a; omega)
    obtain ⟨b, st1, h1, _, hA, _⟩ := getAllocate_spec (octreeLawful d) true bi st hI.inv hg
    refine ⟨st1, ?_, ?_⟩
    · simp only [coreStep, getDistributionBundle, h1]
      rfl
    · rw [hA, allocated_alloc]
      rintro bj (rfl | hbj) a
      · have := hop a; omega
      · have := hw bj hbj a; omega
  | get bi =>
    have hg : st.abs.Good bi := hgood bi (fun a => by have := hop a; omega)
    refine ⟨st, ?_, hw.mono (by omega)⟩
    simp only [coreStep, getBundle]
    rw [if_pos (show st.valid true bi = true from rfl), if_pos (show (octreeBackend d).ok st.bundles bi = true from hg.1)]
    rfl
  | expandOne bi =>
    have hm' : m + 1 ≤ 32767 := hm
    have hg : st.abs.Good bi := hgood bi (fun a => by have := hop a; omega)
    have hgb : getBundle true bi st = some ((octreeBackend d).get st.bundles bi) := by
      unfold getBundle
      rw [if_pos (show st.valid true bi = true from rfl), if_pos (show (octreeBackend d).ok st.bundles bi = true from hg.1)]
    cases hget : (octreeBackend d).get st.bundles bi with
    | none =>
      rw [hget] at hgb
      refine ⟨st, ?_, hw.mono (by omega)⟩
      simp only [coreStep, hgb]
    | some b =>
      rw [hget] at hgb
      have hb : bi ∈ st.abs.allocated := by
        rw [mem_allocated_iff]; unfold bundle Backend.look
        rw [if_pos (show (octreeBackend d).ok st.bundles bi = true from hg.1), hget]; rfl
      have hal : ∀ b ∈ [bi], b ∈ st.abs.allocated := by intro b hb'; rw [List.mem_singleton] at hb'; subst hb'; exact hb
      have hnb : ∀ b ∈ [bi], GoodNb true b (offsets d) st.abs := by
        intro b hb' o ho _
        rw [List.mem_singleton] at hb'; subst hb'
        refine (hk.good _).2 (dynamic_good _ gb gb' _ (inRange_of_abs (n := m + 1) (by omega) ?_))
        intro a
        have h1 := hw b hb a
        have h2 := (mem_offsets o).1 ho a
        have h3 := abs_add_le (b a) (o a)
        have h4 : |o a| ≤ 1 := abs_le.2 h2
        omega
      obtain ⟨s, hs⟩ := (allocPartialList_spec (octreeLawful d) true exp [bi] st hI hal).2 hnb
      refine ⟨s, ?_, within_allocPartialList _ exp [bi] st s hI hal (by simp) m hw hs⟩
      simp only [coreStep, hgb]
      simp only [St.allocPartialList] at hs
      cases hp : allocPartial true exp bi st with
      | none => rw [hp] at hs; cases hs
      | some s' => rw [hp] at hs; exact hs
  | expandAll =>
    have hm' : m + 1 ≤ 32767 := hm
    have hal : ∀ b ∈ st.bundleIndices, b ∈ st.abs.allocated := by
      intro b hb; rw [mem_allocated_iff]; exact (mem_bundleIndices _ st hI.inv b).1 hb
    have hnb : ∀ b ∈ st.bundleIndices, GoodNb true b (offsets d) st.abs := by
      intro b hb' o ho _
      refine (hk.good _).2 (dynamic_good _ gb gb' _ (inRange_of_abs (n := m + 1) (by omega) ?_))
      intro a
      have h1 := hw b (hal b hb') a
      have h2 := (mem_offsets o).1 ho a
      have h3 := abs_add_le (b a) (o a)
      have h4 : |o a| ≤ 1 := abs_le.2 h2
      omega
    obtain ⟨s, hs⟩ := (allocPartialList_spec (octreeLawful d) true exp _ st hI hal).2 hnb
    exact ⟨s, hs, within_allocPartialList _ exp _ st s hI hal (nodup_bundleIndices _ st hI.inv) m hw hs⟩

end

section
variable {K : Type} [Field K] [LinearOrder K] [IsStrictOrderedRing K] [FloorRing K] {d : Nat} {W E : Type} [AddCommMonoid W]

theorem occlusionIndex_abs (startBi bi : Idx d) (c a : Fin d) : |occlusionIndex startBi bi c a| ≤ |bi a| + 1 := by
  unfold occlusionIndex
  by_cases h : a = c
  · subst h
    rw [Function.update_self]
    refine (abs_add_le _ _).trans ?_
    have : |(if startBi a < bi a then (-1 : Int) else 1)| = 1 := by split <;> rfl
    omega
  · rw [Function.update_of_ne h]; omega

/-- the collected updates of a scan within `[-n, n]` -/
theorem collected_within (fl : Flavour K d W E) (hmean : ∀ s : Multiset (Pt K d), fl.mean (s.map fl.sample) = Spec.meanOf s) (g : Geo K d) (hr : 0 < g.r) (n : Int) (s : Scan K d W) (hs : ScanWithin g n s) :
    ∀ e ∈ occCollect fl g (fun _ => true) s.pose s.cloud, (∀ a, |e.1 a| ≤ n) ∧ ∀ x ∈ s.ray (rayStart g s.pose) (fl.mean e.2), ∀ a, |x a| ≤ n := by
  intro e he
  have hv : ((Kind.dynamic (fun _ => 0) 0 : Kind d).init (Occ W E)).abs.valid true = fun _ => true := rfl
  obtain ⟨x, hx, hxe⟩ := List.mem_map.1 he
  have hk : x.1 ∈ Spec.hitBundles g (.dynamic (fun _ => 0) 0) s := (mem_hitBundles (Occ W E) g hr (.dynamic (fun _ => 0) 0) s x.1).2 (List.mem_map.2 ⟨x, hx, rfl⟩)
  obtain ⟨h1, h2⟩ := hs _ hk
  rw [← hxe]
  refine ⟨h1, ?_⟩
  simp only
  have e1 := collect_value g _ s.pose _ x hx
  have e2 := hitsIn_eq (Occ W E) g hr (.dynamic (fun _ => 0) 0) s x.1
  have e3 : x.2 = Spec.hitsIn g (.dynamic (fun _ => 0) 0) s x.1 := e1.trans e2
  rw [e3, hmean]
  exact h2

theorem occInsert_range (fl : Flavour K d W E) (hmean : ∀ s : Multiset (Pt K d), fl.mean (s.map fl.sample) = Spec.meanOf s) (g : Geo K d) (hr : 0 < g.r) (s : Scan K d W) (st : St (octreeBackend d) (Occ W E))
    (hI : RInv (octreeLawful d) true st) (n m : Int) (hgood : ∀ bi, (∀ a, |bi a| ≤ n) → st.abs.Good bi) (hs : ScanWithin g n s) (hnm : n ≤ m) (hw : Within m st.abs.allocated) :
    ∃ st', occInsert fl g true s st = some st' ∧ Within m st'.abs.allocated := by
  have hcol := collected_within fl hmean g hr n s hs
  have hkeys : ∀ e ∈ insertEffects fl g (fun _ => true) s, ∀ a, |e.1 a| ≤ n := by
    intro e he
    rcases List.mem_append.1 he with he | he
    · obtain ⟨x, hx, rfl⟩ := List.mem_map.1 he
      exact (hcol x hx).1
    · obtain ⟨x, hx, rfl⟩ := List.mem_map.1 he
      have hx' := (s.order_perm _).mem_iff.1 hx
      have hr' := (keys_rayFree fl (fun _ => true) s.ray (rayStart g s.pose) x.1 (occCollect fl g (fun _ => true) s.pose s.cloud) []).1
      have key : x.1 ∈ (rayFree fl (fun _ => true) s.ray (rayStart g s.pose) (occCollect fl g (fun _ => true) s.pose s.cloud) []).map Prod.fst := by
        simp only at hx'
        split at hx'
        · exact List.mem_map.2 ⟨x, (List.mem_filter.1 hx').1, rfl⟩
        · exact List.mem_map.2 ⟨x, hx', rfl⟩
      rcases hr' key with h0 | ⟨_, e, he, hxe⟩
      · cases h0
      · exact (hcol e he).2 _ hxe
  have heq := occInsert_eq (octreeLawful d) fl g true s st hI
  rw [show st.valid true = fun _ => true from rfl] at heq
  obtain ⟨st', h'⟩ := occAdd_total (octreeLawful d) true (insertEffects fl g (fun _ => true) s) st hI fun e he => hgood _ (hkeys e he)
  refine ⟨st', heq.trans h', ?_⟩
  have h4 := (occAdd_spec (octreeLawful d) true _ st st' hI h').2.2.2.1
  intro bj hbj a
  rw [mem_allocated, h4] at hbj
  split at hbj
  · rename_i h
    obtain ⟨e, he, rfl⟩ := List.mem_map.1 h
    exact (hkeys e he a).trans hnm
  · exact hw bj hbj a

theorem occStep_range (fl : Flavour K d W E) (hmean : ∀ s : Multiset (Pt K d), fl.mean (s.map fl.sample) = Spec.meanOf s) (g : Geo K d) (hr : 0 < g.r) (defRay : Pt K d → Pt K d → List (Idx d))
    (exp : Occ W E → Bool) (gb : Nat → Nat) (gb' : Nat) (op : OccMapOp K d W E) (st : St (octreeBackend d) (Occ W E)) (hI : RInv (octreeLawful d) true st)
    (hk : Keeps true ((Kind.dynamic gb gb').init (Occ W E)).abs st.abs) (n m : Int) (hn : n < 32767) (hop : OccOpWithin fl g defRay n op) (hnm : n ≤ m) (hw : Within m st.abs.allocated)
    (hm : m + (occExpansions [op] : Int) ≤ 32767) :
    ∃ st', occStep fl g true defRay exp op st = some st' ∧ Within (m + (occExpansions [op] : Int)) st'.abs.allocated := by
  have hgood : ∀ bi, (∀ a, |bi a| ≤ n + 1) → st.abs.Good bi := fun bi hb => (hk.good bi).2 (dynamic_good _ gb gb' bi (inRange_of_abs (by omega) hb))
  have hgood' : ∀ bi, (∀ a, |bi a| ≤ n) → st.abs.Good bi := fun bi hb => hgood bi fun a => (hb a).trans (by omega)
  cases op with
  | insert s =>
    obtain ⟨st', h1, h2⟩ := occInsert_range fl hmean g hr s st hI n m hgood' hop hnm hw
    exact ⟨st', h1, h2.mono (by omega)⟩
  | core op =>
    rw [show occExpansions [(OccMapOp.core op : OccMapOp K d W E)] = op.expands from rfl] at hm ⊢
    exact coreStep_range exp gb gb' op st hI hk n m hop hnm hw hm
  | insertVisible s occ vm =>
    cases occ with
    | none =>
      obtain ⟨st', h1, h2⟩ := occInsert_range fl hmean g hr _ st hI n m hgood' hop hnm hw
      exact ⟨st', h1, h2.mono (by omega)⟩
    | some occ =>
      cases vm with
      | none =>
        obtain ⟨st', h1, h2⟩ := occInsert_range fl hmean g hr _ st hI n m hgood' hop hnm hw
        exact ⟨st', h1, h2.mono (by omega)⟩
      | some vm =>
        have hop' : ScanWithin g n s := hop
        have hcol := collected_within fl hmean g hr n s hop'
        have hocc : ∀ st0 x, (∀ a, |x a| ≤ n) → ∀ c, st.abs.Good (occlusionIndex st0 x c) := fun st0 x hx c =>
          hgood _ fun a => (occlusionIndex_abs st0 x c a).trans (by have := hx a; omega)
        obtain ⟨⟨o, st1⟩, hy⟩ := visHits_total' (octreeLawful d) true fl s.ray occ vm (rayStart g s.pose) (toBundleIndex g.r (rayStart g s.pose))
          (occCollect fl g (st.valid true) s.pose s.cloud) [] st hI (fun e he =>
            ⟨hgood' _ (hcol e he).1, hocc _ _ (hcol e he).1, fun b hb => hocc _ _ ((hcol e he).2 b hb)⟩)
        obtain ⟨⟨hs, h1, h2⟩, h3⟩ := visHits_spec (octreeLawful d) fl true _ occ vm _ _ (st.valid true) _ _ st hI rfl o st1 hy
        obtain ⟨a1, a2, _, a4, _⟩ := occAdd_spec (octreeLawful d) true _ st st1 hI h2
        have hw1 : Within m st1.abs.allocated := by
          intro bj hbj a
          rw [mem_allocated, a4] at hbj
          split at hbj
          · rename_i h
            obtain ⟨e, he, rfl⟩ := List.mem_map.1 h
            obtain ⟨e', he', rfl⟩ := List.mem_map.1 he
            exact ((hcol e' (h1.subset he')).1 a).trans hnm
          · exact hw bj hbj a
        simp only [occStep, occInsertVisible]
        rw [hy]
        cases o with
        | none => exact ⟨_, rfl, hw1.mono (by omega)⟩
        | some f =>
          simp only [occFree_eq]
          have hkeys : ∀ e ∈ (s.order (eraseKeys (occCollect fl g (st.valid true) s.pose s.cloud) f)).map (missOf : _ → Idx d × Occ W E), ∀ a, |e.1 a| ≤ n := by
            intro e he
            obtain ⟨x, hx, rfl⟩ := List.mem_map.1 he
            have hx' := (List.mem_filter.1 ((s.order_perm _).mem_iff.1 hx)).1
            rw [h3 f rfl] at hx'
            rcases (keys_rayFree fl (st.valid true) s.ray (rayStart g s.pose) x.1 (occCollect fl g (st.valid true) s.pose s.cloud) []).1 (List.mem_map.2 ⟨x, hx', rfl⟩) with h0 | ⟨_, e, he, hxe⟩
            · cases h0
            · exact (hcol e he).2 _ hxe
          obtain ⟨st2, h5⟩ := occAdd_total (octreeLawful d) true _ st1 a1 fun e he => (a2.good _).2 (hgood' _ (hkeys e he))
          refine ⟨st2, h5, ?_⟩
          have b4 := (occAdd_spec (octreeLawful d) true _ st1 st2 a1 h5).2.2.2.1
          intro bj hbj a
          rw [mem_allocated, b4] at hbj
          split at hbj
          · rename_i h
            obtain ⟨e, he, rfl⟩ := List.mem_map.1 h
            have := hkeys e he a
            omega
          · have := hw1 bj hbj a; omega

theorem occRun_range (fl : Flavour K d W E) (hmean : ∀ s : Multiset (Pt K d), fl.mean (s.map fl.sample) = Spec.meanOf s) (g : Geo K d) (hr : 0 < g.r) (defRay : Pt K d → Pt K d → List (Idx d))
    (exp : Occ W E → Bool) (gb : Nat → Nat) (gb' : Nat) (n : Int) (hn : n < 32767) :
    ∀ (ops : List (OccMapOp K d W E)) (st : St (octreeBackend d) (Occ W E)), RInv (octreeLawful d) true st → Keeps true ((Kind.dynamic gb gb').init (Occ W E)).abs st.abs →
    (∀ op ∈ ops, OccOpWithin fl g defRay n op) → ∀ m : Int, n ≤ m → Within m st.abs.allocated → m + (occExpansions ops : Int) ≤ 32767 →
    ∃ st', occRun fl g true defRay exp ops st = some st' ∧ Within (m + (occExpansions ops : Int)) st'.abs.allocated
  | [], st, _, _, _, m, _, hw, _ => ⟨st, rfl, hw.mono (by simp [occExpansions])⟩
  | op :: ops, st, hI, hk, hops, m, hnm, hw, hm => by
    have he : occExpansions (op :: ops) = occExpansions [op] + occExpansions ops := by cases op <;> simp [occExpansions]
    rw [he] at hm ⊢
    push_cast at hm ⊢
    obtain ⟨st1, h1, h2⟩ := occStep_range fl hmean g hr defRay exp gb gb' op st hI hk n m hn (hops op (List.mem_cons_self ..)) hnm hw (by omega)
    obtain ⟨a1, a2⟩ := occStep_inv (octreeLawful d) fl g true defRay exp op st st1 hI h1
    obtain ⟨st2, h3, h4⟩ := occRun_range fl hmean g hr defRay exp gb gb' n hn ops st1 a1 (hk.trans a2) (fun o ho => hops o (List.mem_cons_of_mem _ ho)) (m + (occExpansions [op] : Int)) (by omega) h2 (by omega)
    exact ⟨st2, by simp only [occRun, h1, Option.bind_some, h3], h4.mono (by omega)⟩

end
end Ndt
