import Verif.Proofs.AnyCopy

/-! Operations through a copy of a static map, as long as they create no bundles: they change the objects of the original in the same way as the same operations on the original would, and no others. -/

namespace Ndt
open St

namespace St
variable {d : Nat} {B : Backend d} {D : Type}

/-- the operation created no bundle -/
def NoNew (st st' : St B D) : Prop := ∀ bi, (st'.bundle bi).isSome = true → (st.bundle bi).isSome = true

/-- same bundles, same bounds, same objects below `N`, where all objects of the bundles are -/
structure Sim (N : Nat) (st s : St B D) : Prop where
  bundles : s.bundles = st.bundles
  minB : s.minB = st.minB
  maxB : s.maxB = st.maxB
  heap : ∀ a, a < N → s.heap a = st.heap a
  data : ∀ bi b c a, st.bundle bi = some b → b.data c = some a → a < N

structure Through (N : Nat) (st s st' s' : St B D) : Prop where
  sim : Sim N st' s'
  storage : st'.storage = st.storage
  storage' : s'.storage = s.storage
  heap : ∀ a, N ≤ a → s'.heap a = s.heap a

theorem Through.refl {N : Nat} {st s : St B D} (h : Sim N st s) : Through N st s st s := ⟨h, rfl, rfl, fun _ _ => rfl⟩

theorem Through.trans {N : Nat} {st s st1 s1 st2 s2 : St B D} (h : Through N st s st1 s1) (g : Through N st1 s1 st2 s2) : Through N st s st2 s2 :=
  ⟨g.sim, g.storage.trans h.storage, g.storage'.trans h.storage', fun a ha => (g.heap a ha).trans (h.heap a ha)⟩

theorem noNew_split {L : B.Lawful} {st st1 st2 : St B D} (h1 : Grow L st st1) (h2 : Grow L st1 st2) (n : NoNew st st2) : NoNew st st1 ∧ NoNew st1 st2 := by
  have keep : ∀ {s t : St B D}, Grow L s t → ∀ bi, (s.bundle bi).isSome = true → (t.bundle bi).isSome = true := by
    intro s t h bi hs
    obtain ⟨b, hb⟩ := Option.isSome_iff_exists.1 hs
    obtain ⟨b', hb', _⟩ := h.bkeep bi b hb
    rw [hb']; rfl
  exact ⟨fun bi h => n bi (keep h2 bi h), fun bi h => keep h1 bi (n bi h)⟩

theorem Sim.valid {N : Nat} {st s : St B D} (h : Sim N st s) (dyn : Bool) : s.valid dyn = st.valid dyn := by
  funext i; unfold St.valid; rw [h.minB, h.maxB]

theorem Sim.getBundle {N : Nat} {st s : St B D} (h : Sim N st s) (dyn : Bool) (bi : Idx d) : s.getBundle dyn bi = st.getBundle dyn bi := by
  unfold St.getBundle; rw [h.valid, h.bundles]

variable [Inhabited D]

theorem sim_applyBins (N : Nat) (f : D → D) (b : Bundle) (hb : ∀ c a, b.data c = some a → a < N) : ∀ (l : List Nat) (st s st' : St B D), Sim N st s → applyBins f b l st = some st' →
    ∃ s', applyBins f b l s = some s' ∧ Through N st s st' s'
  | [], st, s, st', hS, h => by cases h; exact ⟨s, rfl, .refl hS⟩
  | c :: l, st, s, st', hS, h => by
    simp only [applyBins] at h ⊢
    cases hc : b.data c with
    | none => rw [hc] at h; cases h
    | some a =>
      rw [hc] at h
      have ha := hb c a hc
      have h1 : Sim N ({ st with heap := Function.update st.heap a (f (st.heap a)) } : St B D) { s with heap := Function.update s.heap a (f (s.heap a)) } := by
        refine ⟨hS.bundles, hS.minB, hS.maxB, fun x hx => ?_, hS.data⟩
        show Function.update s.heap a (f (s.heap a)) x = Function.update st.heap a (f (st.heap a)) x
        rw [hS.heap a ha]
        by_cases e : x = a
        · subst e; simp
        · rw [Function.update_of_ne e, Function.update_of_ne e]; exact hS.heap x hx
      obtain ⟨s', x1, x2⟩ := sim_applyBins N f b hb l _ _ st' h1 h
      refine ⟨s', x1, Through.trans ⟨h1, rfl, rfl, fun x hx => ?_⟩ x2⟩
      exact Function.update_of_ne (by omega) _ _

/-- asking for a bundle that exists already changes nothing -/
theorem sim_getAllocate (L : B.Lawful) (N : Nat) (dyn : Bool) (bi : Idx d) (st s st' : St B D) (b : Bundle) (hS : Sim N st s) (hW : W L st) (h : getAllocate dyn bi st = some (b, st'))
    (hn : NoNew st st') : st' = st ∧ st.bundle bi = some b ∧ getAllocate dyn bi s = some (b, s) := by
  have hb := (grow_getAllocate L dyn bi st hW b st' h).2
  obtain ⟨b0, hb0⟩ := Option.isSome_iff_exists.1 (hn bi (by rw [hb]; rfl))
  unfold getAllocate at h ⊢
  rw [hS.bundles]
  split at h
  · rename_i hok
    have hl := look_of_ok B st.bundles bi hok
    rw [if_pos hok]
    have hg : B.get st.bundles bi = some b0 := hl.symm.trans hb0
    rw [hg] at h ⊢
    cases h
    exact ⟨rfl, hb0, rfl⟩
  · cases h

theorem sim_update (L : B.Lawful) (N : Nat) (dyn : Bool) (bi : Idx d) (f : D → D) (st s st' : St B D) (hS : Sim N st s) (hW : W L st) (h : update dyn bi f st = some st') (hn : NoNew st st') :
    ∃ s', update dyn bi f s = some s' ∧ Through N st s st' s' := by
  unfold update at h ⊢
  split at h
  · cases h
  · rename_i b st1 h1
    obtain ⟨_, _, x3⟩ := applyBins_keeps f b _ st1 st' h
    have hn1 : NoNew st st1 := by
      intro bj hj
      refine hn bj ?_
      unfold bundle at hj ⊢
      rw [x3]; exact hj
    obtain ⟨rfl, hb, e⟩ := sim_getAllocate L N dyn bi st s st1 b hS hW h1 hn1
    rw [e]
    exact sim_applyBins N f b (fun c a hc => hS.data bi b c a hb hc) _ _ _ st' hS h

theorem sim_updateList (L : B.Lawful) (N : Nat) (dyn : Bool) : ∀ (l : List (Idx d × (D → D))) (st s st' : St B D), Sim N st s → W L st → updateList dyn l st = some st' → NoNew st st' →
    ∃ s', updateList dyn l s = some s' ∧ Through N st s st' s'
  | [], st, s, st', hS, _, h, _ => by cases h; exact ⟨s, rfl, .refl hS⟩
  | e :: l, st, s, st', hS, hW, h, hn => by
    simp only [updateList] at h ⊢
    obtain ⟨st1, h1, h2⟩ := Option.bind_eq_some_iff.1 h
    have G1 := grow_update L dyn e.1 e.2 st hW st1 h1
    obtain ⟨n1, n2⟩ := noNew_split G1 (grow_updateList L dyn l st1 st' G1.w h2) hn
    obtain ⟨s1, a1, a2⟩ := sim_update L N dyn e.1 e.2 st s st1 hS hW h1 n1
    obtain ⟨s2, b1, b2⟩ := sim_updateList L N dyn l st1 s1 st' a2.sim G1.w h2 n2
    exact ⟨s2, by rw [a1]; exact b1, a2.trans b2⟩

theorem sim_allocNeighbours (L : B.Lawful) (N : Nat) (dyn : Bool) (bi : Idx d) : ∀ (l : List (Idx d)) (st s st' : St B D), Sim N st s → W L st → allocNeighbours dyn bi l st = some st' → NoNew st st' →
    ∃ s', allocNeighbours dyn bi l s = some s' ∧ Through N st s st' s'
  | [], st, s, st', hS, _, h, _ => by cases h; exact ⟨s, rfl, .refl hS⟩
  | o :: l, st, s, st', hS, hW, h, hn => by
    simp only [allocNeighbours] at h ⊢
    rw [hS.valid]
    split at h
    · rename_i hv
      rw [if_pos hv]
      split at h
      · cases h
      · rename_i b1 st1 h1
        have G1 := (grow_getAllocate L dyn _ st hW b1 st1 h1).1
        obtain ⟨n1, n2⟩ := noNew_split G1 (grow_allocNeighbours L dyn bi l st1 st' G1.w h) hn
        obtain ⟨rfl, _, e⟩ := sim_getAllocate L N dyn _ st s st1 b1 hS hW h1 n1
        rw [e]
        exact sim_allocNeighbours L N dyn bi l _ s st' hS hW h hn
    · rename_i hv
      rw [if_neg hv]
      exact sim_allocNeighbours L N dyn bi l st s st' hS hW h hn

omit [Inhabited D] in
theorem sim_expandBundle (N : Nat) (exp : D → Bool) (b : Bundle) (st s : St B D) (hS : Sim N st s) (hb : ∀ c a, b.data c = some a → a < N) : expandBundle exp b s = expandBundle exp b st := by
  unfold expandBundle
  congr 1
  funext c
  cases hc : b.data c with
  | none => rfl
  | some a => simp only; rw [hS.heap a (hb c a hc)]

theorem sim_allocPartial (L : B.Lawful) (N : Nat) (dyn : Bool) (exp : D → Bool) (bi : Idx d) (st s st' : St B D) (hS : Sim N st s) (hW : W L st) (hok : B.ok st.bundles bi = true)
    (h : allocPartial dyn exp bi st = some st') (hn : NoNew st st') : ∃ s', allocPartial dyn exp bi s = some s' ∧ Through N st s st' s' := by
  have hl := look_of_ok B st.bundles bi hok
  simp only [allocPartial] at h ⊢
  rw [hS.bundles]
  split at h
  · cases h
  · rename_i b hb
    rw [sim_expandBundle N exp b st s hS (fun c a hc => hS.data bi b c a (hl.trans hb) hc)]
    split at h
    · rename_i hx
      rw [if_pos hx]
      split at h
      · cases h
      · rename_i st1 h1
        cases h
        have G1 := grow_allocNeighbours L dyn bi _ st st1 hW h1
        have hok1 : B.ok st1.bundles bi = true := by rw [G1.okb]; exact hok
        have hlook := fun bj => L.look_modify st1.bundles bi bj (fun b : Bundle => { b with expand := false }) G1.w.bstore hok1
        have hn1 : NoNew st st1 := by
          intro bj hj
          refine hn bj ?_
          unfold bundle at hj ⊢
          dsimp only
          rw [hlook]
          split
          · rename_i e; subst e; rw [Option.isSome_map]; exact hj
          · exact hj
        obtain ⟨s1, a1, a2⟩ := sim_allocNeighbours L N dyn bi _ st s st1 hS hW h1 hn1
        rw [a1]
        refine ⟨_, rfl, a2.trans ⟨⟨?_, a2.sim.minB, a2.sim.maxB, a2.sim.heap, ?_⟩, rfl, rfl, fun _ _ => rfl⟩⟩
        · show B.modify s1.bundles bi _ = B.modify st1.bundles bi _
          rw [a2.sim.bundles]
        · intro bj b1 c a hb1 ha
          unfold bundle at hb1
          dsimp only at hb1
          rw [hlook] at hb1
          split at hb1
          · rename_i e; subst e
            obtain ⟨b2, hb2, rfl⟩ := Option.map_eq_some_iff.1 hb1
            exact a2.sim.data bj b2 c a hb2 ha
          · exact a2.sim.data bj b1 c a hb1 ha
    · rename_i hx
      rw [if_neg hx]
      cases h
      exact ⟨s, rfl, .refl hS⟩

theorem sim_allocPartialList (L : B.Lawful) (N : Nat) (dyn : Bool) (exp : D → Bool) : ∀ (l : List (Idx d)) (st s st' : St B D), Sim N st s → W L st → (∀ bi ∈ l, B.ok st.bundles bi = true) →
    allocPartialList dyn exp l st = some st' → NoNew st st' → ∃ s', allocPartialList dyn exp l s = some s' ∧ Through N st s st' s'
  | [], st, s, st', hS, _, _, h, _ => by cases h; exact ⟨s, rfl, .refl hS⟩
  | bi :: l, st, s, st', hS, hW, hal, h, hn => by
    simp only [allocPartialList] at h ⊢
    split at h
    · cases h
    · rename_i st1 h1
      have hok := hal bi (List.mem_cons_self ..)
      have G1 := grow_allocPartial L dyn exp bi st st1 hW hok h1
      have hal1 : ∀ b ∈ l, B.ok st1.bundles b = true := fun b hb => by rw [G1.okb]; exact hal b (List.mem_cons_of_mem _ hb)
      obtain ⟨n1, n2⟩ := noNew_split G1 (grow_allocPartialList L dyn exp l st1 st' G1.w hal1 h) hn
      obtain ⟨s1, a1, a2⟩ := sim_allocPartial L N dyn exp bi st s st1 hS hW hok h1 n1
      obtain ⟨s2, b1, b2⟩ := sim_allocPartialList L N dyn exp l st1 s1 st' a2.sim G1.w hal1 h n2
      rw [a1]
      exact ⟨s2, b1, a2.trans b2⟩

theorem sim_coreStep (L : B.Lawful) (N : Nat) (dyn : Bool) (exp : D → Bool) (op : CoreOp d) (st s st' : St B D) (hS : Sim N st s) (hW : W L st)
    (h : coreStep dyn exp op st = some st') (hn : NoNew st st') : ∃ s', coreStep dyn exp op s = some s' ∧ Through N st s st' s' := by
  cases op with
  | bundleAt bi =>
    simp only [coreStep, getDistributionBundle] at h ⊢
    rw [hS.valid]
    split at h
    · rename_i hv
      rw [if_pos hv]
      cases hg : St.getAllocate dyn bi st with
      | none => rw [hg] at h; cases h
      | some r =>
        rw [hg] at h; cases h
        obtain ⟨e1, _, e⟩ := sim_getAllocate L N dyn bi st s r.2 r.1 hS hW hg hn
        rw [e, e1]
        exact ⟨s, rfl, .refl hS⟩
    · rename_i hv
      rw [if_neg hv]
      cases h; exact ⟨s, rfl, .refl hS⟩
  | get bi =>
    simp only [coreStep] at h ⊢
    rw [hS.getBundle]
    cases hg : St.getBundle dyn bi st with
    | none => rw [hg] at h; cases h
    | some r => rw [hg] at h; cases h; exact ⟨s, rfl, .refl hS⟩
  | expandOne bi =>
    simp only [coreStep] at h ⊢
    rw [hS.getBundle]
    split at h
    · cases h
    · cases h
      rename_i hg
      exact ⟨s, rfl, .refl hS⟩
    · rename_i b hb
      refine sim_allocPartial L N dyn exp bi st s st' hS hW ?_ h hn
      unfold St.getBundle at hb
      split at hb
      · split at hb
        · assumption
        · cases hb
      · cases hb
  | expandAll =>
    simp only [coreStep, allocPartials] at h ⊢
    rw [hS.bundles]
    refine sim_allocPartialList L N dyn exp _ st s st' hS hW ?_ h hn
    intro bi hb
    obtain ⟨e, he, rfl⟩ := List.mem_map.1 hb
    have := (L.mem_traverse _ hW.bstore e.1 e.2).1 he
    unfold Backend.look at this
    split at this
    · assumption
    · cases this

end St

section
variable {K : Type} [Field K] [LinearOrder K] [FloorRing K] {d : Nat} {B : Backend d}

theorem sim_gridStep (L : B.Lawful) (N : Nat) (g : Geo K d) (dyn : Bool) (exp : Multiset (Pt K d) → Bool) (op : GridOp K d) (st s st' : St B (Multiset (Pt K d))) (hS : Sim N st s) (hW : W L st)
    (h : gridStep g dyn exp op st = some st') (hn : NoNew st st') : ∃ s', gridStep g dyn exp op s = some s' ∧ Through N st s st' s' := by
  cases op with
  | insert pose cloud =>
    simp only [gridStep, gridInsert] at h ⊢
    rw [hS.valid]
    exact sim_updateList L N dyn _ st s st' hS hW h hn
  | core op => exact sim_coreStep L N dyn exp op st s st' hS hW h hn

end

section
variable {K : Type} [Field K] [LinearOrder K] [FloorRing K] {d : Nat} {B : Backend d} {W E : Type} [AddCommMonoid W]

omit [Field K] [LinearOrder K] [FloorRing K] in
theorem sim_occHits (L : B.Lawful) (N : Nat) (fl : Flavour K d W E) (dyn : Bool) (ray : Pt K d → Pt K d → List (Idx d)) (start : Pt K d) : ∀ (u : List (Idx d × Multiset E)) (free free' : List (Idx d × W))
    (st s st' : St B (Occ W E)), Sim N st s → St.W L st → occHits fl dyn ray start u free st = some (free', st') → NoNew st st' →
    ∃ s', occHits fl dyn ray start u free s = some (free', s') ∧ Through N st s st' s'
  | [], free, free', st, s, st', hS, _, h, _ => by cases h; exact ⟨s, rfl, .refl hS⟩
  | e :: u, free, free', st, s, st', hS, hW, h, hn => by
    simp only [occHits] at h ⊢
    rw [hS.valid]
    split at h
    · cases h
    · rename_i st1 h1
      obtain ⟨l, hl⟩ := occHits_updates fl dyn ray start u _ free' st1 st' h
      have G1 : Grow L st st1 := by
        split at h1
        · cases h1; exact .refl hW
        · exact grow_update L dyn _ _ st hW st1 h1
      obtain ⟨n1, n2⟩ := noNew_split G1 (grow_updateList L dyn l st1 st' G1.w hl) hn
      have : ∃ s1, (if fl.checkValid && !st.valid dyn e.1 then some s else St.update dyn e.1 (fun o => o.updateOccupied e.2) s) = some s1 ∧ Through N st s st1 s1 := by
        split at h1
        · rename_i hc
          cases h1
          rw [if_pos hc]
          exact ⟨s, rfl, .refl hS⟩
        · rename_i hc
          rw [if_neg hc]
          exact sim_update L N dyn e.1 _ st s st1 hS hW h1 n1
      obtain ⟨s1, a1, a2⟩ := this
      rw [a1]
      simp only
      rw [a2.sim.valid]
      obtain ⟨s2, b1, b2⟩ := sim_occHits L N fl dyn ray start u _ free' st1 s1 st' a2.sim G1.w h n2
      exact ⟨s2, b1, a2.trans b2⟩

omit [AddCommMonoid W] [FloorRing K] [LinearOrder K] in
theorem sim_sumOccupancy {D : Type} (N : Nat) (occ : D → K) (b : Bundle) (st s : St B D) (hS : Sim N st s) (hb : ∀ c a, b.data c = some a → a < N) : ∀ (l : List Nat) (x : K),
    sumOccupancy occ b s l x = sumOccupancy occ b st l x
  | [], x => rfl
  | c :: l, x => by
    simp only [sumOccupancy]
    cases hc : b.data c with
    | none => rfl
    | some a =>
      simp only
      rw [hS.heap a (hb c a hc)]
      exact sim_sumOccupancy N occ b st s hS hb l _

omit [FloorRing K] [LinearOrder K] in
theorem sim_bundleOccupancy {D : Type} (N : Nat) (dyn : Bool) (occ : D → K) (bi : Idx d) (st s : St B D) (hS : Sim N st s) : bundleOccupancy dyn occ bi s = bundleOccupancy dyn occ bi st := by
  unfold bundleOccupancy
  rw [hS.getBundle]
  split
  · rfl
  · rfl
  · rename_i b hb
    refine sim_sumOccupancy N occ b st s hS (fun c a hc => ?_) _ _
    unfold St.getBundle at hb
    split at hb
    · split at hb
      · rename_i hok
        exact hS.data bi b c a ((look_of_ok B st.bundles bi hok).trans (Option.some.inj hb)) hc
      · cases hb
    · cases hb

omit [FloorRing K] in
theorem sim_occlusionProb {D : Type} (N : Nat) (dyn : Bool) (occ : D → K) (startBi bi : Idx d) (st s : St B D) (hS : Sim N st s) : ∀ (l : List (Fin d)) (x : K),
    occlusionProb dyn occ startBi bi s l x = occlusionProb dyn occ startBi bi st l x
  | [], x => rfl
  | c :: l, x => by
    simp only [occlusionProb]
    rw [hS.valid, sim_bundleOccupancy N dyn occ _ st s hS]
    split
    · split
      · rfl
      · exact sim_occlusionProb N dyn occ startBi bi st s hS l _
    · exact sim_occlusionProb N dyn occ startBi bi st s hS l _

omit [FloorRing K] in
theorem sim_currentVisibility {D : Type} (N : Nat) (dyn : Bool) (occ : D → K) (vm : VisModel K) (startBi bi : Idx d) (st s : St B D) (hS : Sim N st s) :
    currentVisibility dyn occ vm startBi bi s = currentVisibility dyn occ vm startBi bi st := by
  unfold currentVisibility
  rw [sim_occlusionProb N dyn occ startBi bi st s hS]

omit [FloorRing K] in
theorem sim_visRay {D : Type} (N : Nat) (dyn : Bool) (occ : D → K) (vm : VisModel K) (startBi : Idx d) (n : W) (st s : St B D) (hS : Sim N st s) : ∀ (l : List (Idx d)) (v : K) (free : List (Idx d × W)),
    visRay dyn occ vm startBi n s l v free = visRay dyn occ vm startBi n st l v free
  | [], v, free => rfl
  | bi :: l, v, free => by
    simp only [visRay]
    rw [sim_currentVisibility N dyn occ vm startBi bi st s hS, hS.valid]
    split
    · rfl
    · split
      · rfl
      · exact sim_visRay N dyn occ vm startBi n st s hS l _ _

omit [FloorRing K] in
theorem sim_visHits (L : B.Lawful) (N : Nat) (fl : Flavour K d W E) (dyn : Bool) (ray : Pt K d → Pt K d → List (Idx d)) (occ : Occ W E → K) (vm : VisModel K) (start : Pt K d) (startBi : Idx d) :
    ∀ (u : List (Idx d × Multiset E)) (free : List (Idx d × W)) (free' : Option (List (Idx d × W)))
    (st s st' : St B (Occ W E)), Sim N st s → St.W L st → visHits fl dyn ray occ vm start startBi u free st = some (free', st') → NoNew st st' →
    ∃ s', visHits fl dyn ray occ vm start startBi u free s = some (free', s') ∧ Through N st s st' s'
  | [], free, free', st, s, st', hS, _, h, _ => by cases h; exact ⟨s, rfl, .refl hS⟩
  | e :: u, free, free', st, s, st', hS, hW, h, hn => by
    simp only [visHits] at h ⊢
    rw [sim_visRay N dyn occ vm startBi _ st s hS, sim_currentVisibility N dyn occ vm startBi _ st s hS]
    split at h
    · cases h
    · rename_i hv
      cases h
      exact ⟨s, rfl, .refl hS⟩
    · rename_i v free1 hv
      split at h
      · cases h
      · rename_i cv hcv
        split at h
        · rename_i hp
          rw [if_pos hp]
          split at h
          · cases h
          · rename_i st1 h1
            have G1 := grow_update L dyn _ _ st hW st1 h1
            obtain ⟨l, hl⟩ := visHits_updates fl dyn ray occ vm start startBi u _ free' st1 st' h
            obtain ⟨n1, n2⟩ := noNew_split G1 (grow_updateList L dyn l st1 st' G1.w hl) hn
            obtain ⟨s1, a1, a2⟩ := sim_update L N dyn e.1 _ st s st1 hS hW h1 n1
            obtain ⟨s2, b1, b2⟩ := sim_visHits L N fl dyn ray occ vm start startBi u _ free' st1 s1 st' a2.sim G1.w h n2
            rw [a1]
            exact ⟨s2, b1, a2.trans b2⟩
        · rename_i hp
          rw [if_neg hp]
          exact sim_visHits L N fl dyn ray occ vm start startBi u _ free' st s st' hS hW h hn

theorem sim_occInsert (L : B.Lawful) (N : Nat) (fl : Flavour K d W E) (g : Geo K d) (dyn : Bool) (sc : Scan K d W) (st s st' : St B (Occ W E)) (hS : Sim N st s) (hW : St.W L st)
    (h : occInsert fl g dyn sc st = some st') (hn : NoNew st st') : ∃ s', occInsert fl g dyn sc s = some s' ∧ Through N st s st' s' := by
  simp only [occInsert] at h ⊢
  rw [hS.valid]
  split at h
  · cases h
  · rename_i free st1 h1
    obtain ⟨l, hl⟩ := occHits_updates fl dyn _ _ _ _ _ _ _ h1
    have G1 := grow_updateList L dyn l st st1 hW hl
    obtain ⟨n1, n2⟩ := noNew_split G1 (grow_updateList L dyn _ st1 st' G1.w h) hn
    obtain ⟨s1, a1, a2⟩ := sim_occHits L N fl dyn _ _ _ _ _ st s st1 hS hW h1 n1
    rw [a1]
    obtain ⟨s2, b1, b2⟩ := sim_updateList L N dyn _ st1 s1 st' a2.sim G1.w h n2
    exact ⟨s2, b1, a2.trans b2⟩

theorem sim_occStep (L : B.Lawful) (N : Nat) (fl : Flavour K d W E) (g : Geo K d) (dyn : Bool) (defRay : Pt K d → Pt K d → List (Idx d)) (exp : Occ W E → Bool) (op : OccMapOp K d W E)
    (st s st' : St B (Occ W E)) (hS : Sim N st s) (hW : St.W L st) (h : occStep fl g dyn defRay exp op st = some st') (hn : NoNew st st') :
    ∃ s', occStep fl g dyn defRay exp op s = some s' ∧ Through N st s st' s' := by
  cases op with
  | insert sc => exact sim_occInsert L N fl g dyn sc st s st' hS hW h hn
  | core op => exact sim_coreStep L N dyn exp op st s st' hS hW h hn
  | insertVisible sc occ vm =>
    simp only [occStep, occInsertVisible] at h ⊢
    cases occ with
    | none => exact sim_occInsert L N fl g dyn _ st s st' hS hW h hn
    | some occ =>
      cases vm with
      | none => exact sim_occInsert L N fl g dyn _ st s st' hS hW h hn
      | some vm =>
        simp only at h ⊢
        rw [hS.valid]
        split at h
        · cases h
        · rename_i st1 h1
          cases h
          obtain ⟨s1, a1, a2⟩ := sim_visHits L N fl dyn _ _ _ _ _ _ _ _ st s _ hS hW h1 hn
          rw [a1]
          exact ⟨s1, rfl, a2⟩
        · rename_i free st1 h1
          obtain ⟨l, hl⟩ := visHits_updates fl dyn _ _ _ _ _ _ _ _ _ _ h1
          have G1 := grow_updateList L dyn l st st1 hW hl
          obtain ⟨n1, n2⟩ := noNew_split G1 (grow_updateList L dyn _ st1 st' G1.w h) hn
          obtain ⟨s1, a1, a2⟩ := sim_visHits L N fl dyn _ _ _ _ _ _ _ _ st s st1 hS hW h1 n1
          rw [a1]
          obtain ⟨s2, b1, b2⟩ := sim_updateList L N dyn _ st1 s1 st' a2.sim G1.w h n2
          exact ⟨s2, b1, a2.trans b2⟩

end
end Ndt
