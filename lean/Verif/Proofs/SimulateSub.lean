import Verif.Proofs.Simulate

/-!
Two maps with the same bundles, contents and bounds, where the storages of the first one hold (of a set `S`) every bundle the storages of the second one hold:
a history that is defined on the second map and creates only bundles of `S` is defined on the first map, with the same result.
-/

namespace Ndt
open St

namespace St
variable {d : Nat} {B : Backend d} {D : Type} [Inhabited D]
open Abs (Grow)

structure Sub (L : B.Lawful) (dyn : Bool) (S : Set (Idx d)) (st st' : St B D) : Prop extends Alike L dyn st st' where
  good : ∀ bi ∈ S, st'.abs.Good bi → st.abs.Good bi

variable {L : B.Lawful} {dyn : Bool} {S : Set (Idx d)} {st st' : St B D}

theorem sub_keeps {A A' A1 A1' : Abs d D} (h : ∀ bi ∈ S, A'.Good bi → A.Good bi) (k : Abs.Keeps dyn A A1) (k' : Abs.Keeps dyn A' A1') : ∀ bi ∈ S, A1'.Good bi → A1.Good bi := by
  intro bi hb
  rw [k.good, k'.good]
  exact h bi hb

theorem Sub.getAllocate (h : Sub L dyn S st st') (bi : Idx d) {s' : St B D} (e' : (St.getAllocate dyn bi st').map Prod.snd = some s') (hS : s'.abs.allocated ⊆ S) :
    ∃ s, (St.getAllocate dyn bi st).map Prod.snd = some s ∧ Sub L dyn S s s' := by
  have r := getAllocate_refines L dyn bi st h.inv.inv
  have r' := getAllocate_refines L dyn bi st' h.inv'.inv
  have hg' := r'.2 s' e'
  obtain ⟨s2, e2, i', a'⟩ := r'.1 hg'
  rw [e'] at e2; cases e2
  have hg : st.abs.Good bi := h.good bi (hS (by rw [a', Abs.allocated_alloc]; exact Set.mem_insert _ _)) hg'
  obtain ⟨s, e, i, a⟩ := r.1 hg
  have hG : Grow dyn st.abs s.abs := by rw [a]; exact .alloc bi .refl hg
  have hG' : Grow dyn st'.abs s'.abs := by rw [a']; exact .alloc bi .refl hg'
  refine ⟨s, e, ⟨⟨i, h.inv.ainv.grow hG h.inv.rng, by intro hd bi' hb; exact h.inv.rng hd bi' (by rw [← hG.okB]; exact hb), ?_⟩,
    ⟨i', h.inv'.ainv.grow hG' h.inv'.rng, by intro hd bi' hb; exact h.inv'.rng hd bi' (by rw [← hG'.okB]; exact hb), ?_⟩, ?_⟩, sub_keeps h.good hG.keeps hG'.keeps⟩
  · rw [a]; exact h.inv.closed.alloc bi
  · rw [a']; exact h.inv'.closed.alloc bi
  · rw [a, a']; exact h.sim.alloc dyn bi

theorem Sub.update (h : Sub L dyn S st st') (bi : Idx d) (f : D → D) {s' : St B D} (e' : St.update dyn bi f st' = some s') (hS : s'.abs.allocated ⊆ S) :
    ∃ s, St.update dyn bi f st = some s ∧ Sub L dyn S s s' := by
  have r := update_refines L dyn bi f st h.inv.inv
  have r' := update_refines L dyn bi f st' h.inv'.inv
  have hg' := r'.2 s' e'
  obtain ⟨s2, e2, i', a'⟩ := r'.1 hg'
  rw [e'] at e2; cases e2
  have hg : st.abs.Good bi := h.good bi (hS (by rw [a', Abs.allocated_upd]; exact Set.mem_insert _ _)) hg'
  obtain ⟨s, e, i, a⟩ := r.1 hg
  obtain ⟨q, _, kq⟩ := RInv.upds (L := L) (dyn := dyn) [(bi, f)] st s h.inv (by simp [St.updateList, e])
  obtain ⟨q', _, kq'⟩ := RInv.upds (L := L) (dyn := dyn) [(bi, f)] st' s' h.inv' (by simp [St.updateList, e'])
  exact ⟨s, e, ⟨q, q', by rw [a, a']; exact h.sim.upd dyn bi f⟩, sub_keeps h.good kq kq'⟩

theorem Sub.updateList : ∀ (l : List (Idx d × (D → D))) {st st' : St B D}, Sub L dyn S st st' → ∀ {s' : St B D}, St.updateList dyn l st' = some s' → s'.abs.allocated ⊆ S →
    ∃ s, St.updateList dyn l st = some s ∧ Sub L dyn S s s'
  | [], st, _, h, _, e', _ => by cases e'; exact ⟨st, rfl, h⟩
  | x :: l, st, st', h, s', e', hS => by
    simp only [St.updateList] at e' ⊢
    obtain ⟨s1', e1', e2'⟩ : ∃ s1', St.update dyn x.1 x.2 st' = some s1' ∧ St.updateList dyn l s1' = some s' := by
      cases hu : St.update dyn x.1 x.2 st' with
      | none => rw [hu] at e'; cases e'
      | some s1' => rw [hu] at e'; exact ⟨s1', rfl, e'⟩
    have i1 := (RInv.upds (L := L) (dyn := dyn) [x] st' s1' h.inv' (by simp [St.updateList, e1'])).1
    have hk := (RInv.upds (L := L) (dyn := dyn) l s1' s' i1 e2').2.2
    obtain ⟨s1, e1, h1⟩ := h.update x.1 x.2 e1' (hk.allocated.trans hS)
    obtain ⟨s, e, h2⟩ := Sub.updateList l h1 e2' hS
    exact ⟨s, by rw [e1]; exact e, h2⟩

theorem Sub.allocPartialList (h : Sub L dyn S st st') (exp : D → Bool) (l l' : List (Idx d)) (hal : ∀ bi ∈ l, bi ∈ st.abs.allocated) (hnd : l.Nodup) (hnd' : l'.Nodup) (hl : ∀ bi, bi ∈ l' ↔ bi ∈ l)
    {s1' : St B D} (e' : St.allocPartialList dyn exp l' st' = some s1') (hS : s1'.abs.allocated ⊆ S) :
    ∃ s1, St.allocPartialList dyn exp l st = some s1 ∧ Sub L dyn S s1 s1' := by
  have hal' : ∀ bi ∈ l', bi ∈ st'.abs.allocated := fun bi hb => by rw [h.sim.allocated]; exact hal bi ((hl bi).1 hb)
  have hsym : Alike L dyn st' st := ⟨h.inv', h.inv, h.sim.symm⟩
  have g1' := ((allocPartialList_spec L dyn exp l' st' h.inv' hal').1 s1' e').2.2.1
  have i1' := allocPartialList_closed L dyn exp l' st' h.inv' hal' hnd' s1' e'
  obtain ⟨s1, e⟩ : ∃ s1, St.allocPartialList dyn exp l st = some s1 := by
    obtain ⟨_, _, _, x4⟩ := (allocPartialList_spec L dyn exp l' st' h.inv' hal').1 s1' e'
    refine allocPartialList_success L dyn exp l st h.inv hal hnd ?_
    intro bi hb ht o ho hv
    rw [← h.sim.valid] at hv
    have hnb := (Abs.neighbour_iff bi _).2 ⟨o, ho, rfl⟩
    rcases hsym.trigger exp bi ht with ht' | hn
    · have hbl := (hl bi).2 hb
      refine h.good _ (hS ?_) (x4 bi hbl hnd' ht' o ho hv)
      rw [mem_allocated_allocPartialList L dyn exp l' st' h.inv' hal' hnd' s1' e']
      exact Or.inr ⟨hv, bi, hbl, ht', hnb⟩
    · have hm := hn _ hv hnb
      rw [h.sim.allocated] at hm
      exact good_of_allocated L st h.inv.inv _ hm
  have g1 := ((allocPartialList_spec L dyn exp l st h.inv hal).1 s1 e).2.2.1
  have i1 := allocPartialList_closed L dyn exp l st h.inv hal hnd s1 e
  refine ⟨s1, e, ⟨i1, i1', h.sim.grow g1 g1' i1.ainv i1'.ainv ?_⟩, sub_keeps h.good g1.keeps g1'.keeps⟩
  ext bj
  rw [mem_allocated_allocPartialList L dyn exp l st h.inv hal hnd s1 e, mem_allocated_allocPartialList L dyn exp l' st' h.inv' hal' hnd' s1' e', h.sim.allocated, h.sim.valid]
  constructor
  · rintro (hb | ⟨hv, bi, hbi, ht, hn⟩)
    · exact Or.inl hb
    · rcases h.trigger exp bi ht with ht' | hc
      · exact Or.inr ⟨hv, bi, (hl bi).1 hbi, ht', hn⟩
      · exact Or.inl (hc bj hv hn)
  · rintro (hb | ⟨hv, bi, hbi, ht, hn⟩)
    · exact Or.inl hb
    · rcases hsym.trigger exp bi ht with ht' | hc
      · exact Or.inr ⟨hv, bi, (hl bi).2 hbi, ht', hn⟩
      · have := hc bj (by rw [h.sim.valid]; exact hv) hn
        rw [h.sim.allocated] at this; exact Or.inl this

theorem Sub.coreStep (h : Sub L dyn S st st') (exp : D → Bool) (op : CoreOp d) {s' : St B D} (e' : St.coreStep dyn exp op st' = some s') (hS : s'.abs.allocated ⊆ S) :
    ∃ s, St.coreStep dyn exp op st = some s ∧ Sub L dyn S s s' := by
  cases op with
  | bundleAt bi =>
    simp only [St.coreStep, getDistributionBundle] at e' ⊢
    rw [h.validEq] at e'
    by_cases hv : st.valid dyn bi = true
    · rw [if_pos hv] at e' ⊢
      cases e1 : St.getAllocate dyn bi st' with
      | none => rw [e1] at e'; cases e'
      | some p =>
        rw [e1] at e'
        obtain ⟨s, e2, h2⟩ := h.getAllocate bi (s' := s') (by rw [e1]; simpa using e') hS
        cases e3 : St.getAllocate dyn bi st with
        | none => rw [e3] at e2; cases e2
        | some q =>
          rw [e3] at e2
          exact ⟨s, by simpa using e2, h2⟩
    · rw [if_neg hv] at e' ⊢
      have : st' = s' := by simpa using e'
      subst this
      exact ⟨st, by simp, h⟩
  | get bi =>
    simp only [St.coreStep] at e' ⊢
    have := h.getBundle bi
    cases e : St.getBundle dyn bi st with
    | none => rw [this.of_none e] at e'; cases e'
    | some p =>
      obtain ⟨p', e2, _⟩ := this.of_some e
      rw [e2] at e'
      have : st' = s' := by simpa using e'
      subst this
      exact ⟨st, by simp, h⟩
  | expandOne bi =>
    simp only [St.coreStep] at e' ⊢
    have := h.getBundle bi
    cases e : St.getBundle dyn bi st with
    | none => rw [this.of_none e] at e'; cases e'
    | some p =>
      obtain ⟨p', e2, r⟩ := this.of_some e
      rw [e2] at e'
      cases p with
      | none =>
        rw [r.of_none rfl] at e'
        have : st' = s' := by simpa using e'
        subst this
        exact ⟨st, by simp, h⟩
      | some b =>
        obtain ⟨b', rfl, hb, hb'⟩ := r.of_some rfl
        simp only at e' ⊢
        have hm : ∀ b ∈ [bi], b ∈ st.abs.allocated := by
          intro x hx; rw [List.mem_singleton] at hx; subst hx; rw [mem_allocated_iff, hb]; rfl
        have q : ∀ s : St B D, St.allocPartialList dyn exp [bi] s = St.allocPartial dyn exp bi s := by
          intro s; simp only [St.allocPartialList]; cases St.allocPartial dyn exp bi s <;> rfl
        rw [← q] at e' ⊢
        exact h.allocPartialList exp [bi] [bi] hm (by simp) (by simp) (fun _ => Iff.rfl) e' hS
  | expandAll =>
    have hm : ∀ (s : St B D), RInv L dyn s → ∀ b, b ∈ s.bundleIndices ↔ b ∈ s.abs.allocated := by
      intro s hI b; rw [mem_allocated_iff]; exact mem_bundleIndices L s hI.inv b
    exact h.allocPartialList exp _ _ (fun b hb => (hm st h.inv b).1 hb) (nodup_bundleIndices L st h.inv.inv) (nodup_bundleIndices L st' h.inv'.inv)
      (fun bi => by
        have a1 := hm st h.inv bi
        have a2 := hm st' h.inv' bi
        rw [h.sim.allocated] at a2
        exact a2.trans a1.symm) e' hS

end St

section
variable {K : Type} [Field K] [LinearOrder K] [FloorRing K] {d : Nat} {B : Backend d} {L : B.Lawful} {dyn : Bool} {S : Set (Idx d)}

theorem gridStep_keeps (g : Geo K d) (exp : Multiset (Pt K d) → Bool) (op : GridOp K d) (st s : St B (Multiset (Pt K d))) (hI : RInv L dyn st) (h : gridStep g dyn exp op st = some s) :
    RInv L dyn s ∧ Abs.Keeps dyn st.abs s.abs := by
  cases op with
  | insert pose cloud =>
    obtain ⟨a, _, b⟩ := RInv.upds _ st s hI h
    exact ⟨a, b⟩
  | core op =>
    obtain ⟨a, b⟩ := coreStep_spec L dyn exp op st hI s h
    exact ⟨a, b.keeps⟩

theorem gridRun_keeps (g : Geo K d) (exp : Multiset (Pt K d) → Bool) : ∀ (ops : List (GridOp K d)) (st s : St B (Multiset (Pt K d))), RInv L dyn st → gridRun g dyn exp ops st = some s →
    RInv L dyn s ∧ Abs.Keeps dyn st.abs s.abs
  | [], st, s, hI, h => by cases h; exact ⟨hI, .refl ..⟩
  | op :: ops, st, s, hI, h => by
    obtain ⟨s1, h1, h2⟩ := Option.bind_eq_some_iff.1 h
    obtain ⟨a1, a2⟩ := gridStep_keeps g exp op st s1 hI h1
    obtain ⟨b1, b2⟩ := gridRun_keeps g exp ops s1 s a1 h2
    exact ⟨b1, a2.trans b2⟩

theorem St.Sub.gridStep {st st' : St B (Multiset (Pt K d))} (h : Sub L dyn S st st') (g : Geo K d) (exp : Multiset (Pt K d) → Bool) (op : GridOp K d) {s' : St B (Multiset (Pt K d))}
    (e' : Ndt.gridStep g dyn exp op st' = some s') (hS : s'.abs.allocated ⊆ S) : ∃ s, Ndt.gridStep g dyn exp op st = some s ∧ Sub L dyn S s s' := by
  cases op with
  | insert pose cloud =>
    simp only [Ndt.gridStep, gridInsert] at e' ⊢
    rw [h.validEq] at e'
    exact Sub.updateList _ h e' hS
  | core op => exact h.coreStep exp op e' hS

theorem St.Sub.gridRun (g : Geo K d) (exp : Multiset (Pt K d) → Bool) : ∀ (ops : List (GridOp K d)) {st st' : St B (Multiset (Pt K d))}, Sub L dyn S st st' →
    ∀ {s' : St B (Multiset (Pt K d))}, Ndt.gridRun g dyn exp ops st' = some s' → s'.abs.allocated ⊆ S → ∃ s, Ndt.gridRun g dyn exp ops st = some s ∧ Sub L dyn S s s'
  | [], st, _, h, _, e', _ => by cases e'; exact ⟨st, rfl, h⟩
  | op :: ops, st, st', h, s', e', hS => by
    obtain ⟨s1', h1', h2'⟩ := Option.bind_eq_some_iff.1 e'
    obtain ⟨i1, _⟩ := gridStep_keeps (L := L) g exp op st' s1' h.inv' h1'
    have hk := (gridRun_keeps (L := L) g exp ops s1' s' i1 h2').2
    obtain ⟨s1, h1, hs1⟩ := h.gridStep g exp op h1' (hk.allocated.trans hS)
    obtain ⟨s, h2, hs⟩ := St.Sub.gridRun g exp ops hs1 h2' hS
    exact ⟨s, Option.bind_eq_some_iff.2 ⟨s1, h1, h2⟩, hs⟩

variable {W E : Type} [AddCommMonoid W]

theorem St.Sub.occInsert {st st' : St B (Occ W E)} (h : Sub L dyn S st st') (fl : Flavour K d W E) (g : Geo K d) (s : Scan K d W) {s1' : St B (Occ W E)}
    (e' : Ndt.occInsert fl g dyn s st' = some s1') (hS : s1'.abs.allocated ⊆ S) : ∃ s1, Ndt.occInsert fl g dyn s st = some s1 ∧ Sub L dyn S s1 s1' := by
  rw [occInsert_eq L fl g dyn s st' h.inv', h.validEq] at e'
  rw [occInsert_eq L fl g dyn s st h.inv]
  exact Sub.updateList _ h e' hS

theorem St.Sub.visHits (fl : Flavour K d W E) (ray : Pt K d → Pt K d → List (Idx d)) (occ : Occ W E → K) (vm : VisModel K) (start : Pt K d) (startBi : Idx d) :
    ∀ (l : List (Idx d × Multiset E)) (free : List (Idx d × W)) {st st' : St B (Occ W E)}, Sub L dyn S st st' → ∀ {f' : Option (List (Idx d × W))} {s' : St B (Occ W E)},
    Ndt.visHits fl dyn ray occ vm start startBi l free st' = some (f', s') → s'.abs.allocated ⊆ S →
    ∃ s, Ndt.visHits fl dyn ray occ vm start startBi l free st = some (f', s) ∧ Sub L dyn S s s'
  | [], _, st, _, h, _, _, e', _ => by cases e'; exact ⟨st, rfl, h⟩
  | e :: l, free, st, st', h, f', s', e', hS => by
    unfold Ndt.visHits at e' ⊢
    rw [h.visRay, h.currentVisibility] at e'
    cases e1 : Ndt.visRay dyn occ vm startBi (fl.amount e.2) st (ray start (fl.mean e.2)) 1 free with
    | none => rw [e1] at e'; cases e'
    | some x =>
      rw [e1] at e'
      cases x with
      | none => cases e'; exact ⟨st, rfl, h⟩
      | some y =>
        obtain ⟨v, free'⟩ := y
        simp only at e' ⊢
        cases e2 : Ndt.currentVisibility dyn occ vm startBi e.1 st with
        | none => rw [e2] at e'; cases e'
        | some cv =>
          rw [e2] at e'
          simp only at e' ⊢
          split at e'
          · rename_i hp
            rw [if_pos hp]
            cases e3 : St.update dyn e.1 (fun o => o.updateOccupied e.2) st' with
            | none => rw [e3] at e'; cases e'
            | some s1' =>
              rw [e3] at e'
              have i1 := (RInv.upds (L := L) (dyn := dyn) [(e.1, fun o => o.updateOccupied e.2)] st' s1' h.inv' (by simp [St.updateList, e3])).1
              obtain ⟨⟨hs, _, b2⟩, _⟩ := visHits_spec L fl dyn ray occ vm start startBi (s1'.valid dyn) l _ s1' i1 rfl f' s' e'
              have hk := (occAdd_spec L dyn _ s1' s' i1 b2).2.1
              obtain ⟨s1, e4, h1⟩ := h.update e.1 _ e3 (hk.allocated.trans hS)
              rw [e4]
              exact St.Sub.visHits fl ray occ vm start startBi l _ h1 e' hS
          · rename_i hp
            rw [if_neg hp]
            exact St.Sub.visHits fl ray occ vm start startBi l _ h e' hS

theorem St.Sub.occStep {st st' : St B (Occ W E)} (h : Sub L dyn S st st') (fl : Flavour K d W E) (g : Geo K d) (defRay : Pt K d → Pt K d → List (Idx d)) (exp : Occ W E → Bool) (op : OccMapOp K d W E)
    {s1' : St B (Occ W E)} (e' : Ndt.occStep fl g dyn defRay exp op st' = some s1') (hS : s1'.abs.allocated ⊆ S) : ∃ s1, Ndt.occStep fl g dyn defRay exp op st = some s1 ∧ Sub L dyn S s1 s1' := by
  cases op with
  | insert s => exact h.occInsert fl g s e' hS
  | core op => exact h.coreStep exp op e' hS
  | insertVisible s occ vm =>
    cases occ with
    | none => exact h.occInsert fl g _ e' hS
    | some occ =>
      cases vm with
      | none => exact h.occInsert fl g _ e' hS
      | some vm =>
        simp only [Ndt.occStep, occInsertVisible] at e' ⊢
        rw [h.validEq] at e'
        cases e : Ndt.visHits fl dyn s.ray occ vm (rayStart g s.pose) (toBundleIndex g.r (rayStart g s.pose)) (occCollect fl g (st.valid dyn) s.pose s.cloud) [] st' with
        | none => rw [e] at e'; cases e'
        | some p =>
          obtain ⟨f', s2'⟩ := p
          rw [e] at e'
          obtain ⟨⟨hs, _, b2⟩, _⟩ := visHits_spec L fl dyn s.ray occ vm _ _ (st'.valid dyn) _ _ st' h.inv' rfl f' s2' e
          have i2 := (occAdd_spec L dyn _ st' s2' h.inv' b2).1
          cases f' with
          | none =>
            simp only at e'
            cases e'
            obtain ⟨s2, e2, h2⟩ := St.Sub.visHits fl s.ray occ vm _ _ _ _ h e hS
            rw [e2]
            exact ⟨s2, rfl, h2⟩
          | some f =>
            simp only at e'
            have hk := (RInv.upds (L := L) _ s2' s1' i2 e').2.2
            obtain ⟨s2, e2, h2⟩ := St.Sub.visHits fl s.ray occ vm _ _ _ _ h e (hk.allocated.trans hS)
            rw [e2]
            exact Sub.updateList _ h2 e' hS

theorem St.Sub.occRun (fl : Flavour K d W E) (g : Geo K d) (defRay : Pt K d → Pt K d → List (Idx d)) (exp : Occ W E → Bool) : ∀ (ops : List (OccMapOp K d W E)) {st st' : St B (Occ W E)},
    Sub L dyn S st st' → ∀ {s' : St B (Occ W E)}, Ndt.occRun fl g dyn defRay exp ops st' = some s' → s'.abs.allocated ⊆ S → ∃ s, Ndt.occRun fl g dyn defRay exp ops st = some s ∧ Sub L dyn S s s'
  | [], st, _, h, _, e', _ => by cases e'; exact ⟨st, rfl, h⟩
  | op :: ops, st, st', h, s', e', hS => by
    obtain ⟨s1', h1', h2'⟩ := Option.bind_eq_some_iff.1 e'
    obtain ⟨i1, _⟩ := occStep_inv L fl g dyn defRay exp op st' s1' h.inv' h1'
    have hk := (occRun_inv L fl g dyn defRay exp ops s1' s' i1 h2').2
    obtain ⟨s1, h1, hs1⟩ := h.occStep fl g defRay exp op h1' (hk.allocated.trans hS)
    obtain ⟨s, h2, hs⟩ := St.Sub.occRun fl g defRay exp ops hs1 h2' hS
    exact ⟨s, Option.bind_eq_some_iff.2 ⟨s1, h1, h2⟩, hs⟩

end
end Ndt
