import Verif.Model.Copy
import Verif.Proofs.GridmapMore

/-! Frame lemmas and facts about copies. -/

namespace Ndt
open St Abs

namespace St
variable {d : Nat} {B : Backend d} {D : Type} [Inhabited D]

/-- An operation touches only objects that the map owns or that it newly allocated. -/
structure Frame (st st' : St B D) : Prop where
  next : st.next ≤ st'.next
  heap : ∀ a, a < st.next → (∀ c k, st.dist c k ≠ some a) → st'.heap a = st.heap a
  own : ∀ c k a, st'.dist c k = some a → st.dist c k = some a ∨ st.next ≤ a

omit [Inhabited D] in
theorem Frame.refl (st : St B D) : Frame st st := ⟨le_refl _, fun _ _ _ => rfl, fun _ _ _ h => Or.inl h⟩

omit [Inhabited D] in
theorem Frame.trans {s t u : St B D} (h : Frame s t) (g : Frame t u) : Frame s u where
  next := le_trans h.next g.next
  heap := by
    intro a ha ho
    rw [g.heap a (lt_of_lt_of_le ha h.next), h.heap a ha ho]
    intro c k hc
    rcases h.own c k a hc with x | x
    · exact ho c k x
    · omega
  own := by
    intro c k a hc
    rcases g.own c k a hc with x | x
    · exact h.own c k a x
    · exact Or.inr (le_trans h.next x)

omit [Inhabited D] in
/-- the frame does not depend on the bundles and bounds -/
theorem Frame.congr {st st' st'' : St B D} (h : Frame st st') (e1 : st''.heap = st'.heap) (e2 : st''.next = st'.next) (e3 : st''.storage = st'.storage) :
    Frame st st'' where
  next := by rw [e2]; exact h.next
  heap := by rw [e1]; exact h.heap
  own := by
    intro c k a hc
    refine h.own c k a ?_
    unfold dist at hc ⊢; rw [← e3]; exact hc

theorem frame_allocBins (L : B.Lawful) : ∀ (l : List (Nat × Idx d)) (b : Bundle) (st : St B D), Inv0 L st →
    ∀ b' st', allocBins l b st = some (b', st') → Frame st st' ∧ Inv0 L st'
  | [], b, st, hI, b', st', h => by cases h; exact ⟨.refl _, hI⟩
  | (c, k) :: l, b, st, hI, b', st', h => by
    simp only [allocBins] at h
    split at h
    · exact frame_allocBins L l b st hI b' st' h
    · split at h
      · cases h
      · rename_i a st1 hg
        have hok := getAllocateDist_ok c k st _ hg
        obtain ⟨a', s', e1, e2, e3, _⟩ := getAllocateDist_spec L st hI c k hok
        rw [hg] at e1; cases e1
        obtain ⟨x1, x2⟩ := frame_allocBins L l _ st1 e2 b' st' h
        refine ⟨Frame.trans ⟨e3.next, fun a ha _ => e3.heap a ha, ?_⟩ x1, x2⟩
        intro c k a hc
        rcases e3.new c k a hc with x | ⟨_, x, _⟩
        · exact Or.inl x
        · exact Or.inr x

theorem frame_getAllocate (L : B.Lawful) (dyn : Bool) (bi : Idx d) (st : St B D) (hI : Inv L st) (b : Bundle) (st' : St B D)
    (h : getAllocate dyn bi st = some (b, st')) : Frame st st' := by
  unfold getAllocate at h
  split at h
  · split at h
    · cases h; exact .refl _
    · simp only at h
      split at h
      · cases h
      · rename_i b2 st2 hb
        cases h
        have h0 : Inv0 L ({ st with bundles := B.insert st.bundles bi Bundle.new } : St B D) := ⟨hI.store, hI.fresh, hI.inj⟩
        obtain ⟨x, _⟩ := frame_allocBins L _ _ _ h0 _ _ hb
        have y : Frame st st2 := ⟨x.next, x.heap, x.own⟩
        refine y.congr ?_ ?_ ?_ <;> (unfold updateIndices; split <;> rfl)
  · cases h

theorem frame_applyBins (f : D → D) (b : Bundle) : ∀ (l : List Nat) (st st' : St B D), applyBins f b l st = some st' →
    st'.next = st.next ∧ st'.storage = st.storage ∧ (∀ a, (∀ c ∈ l, b.data c ≠ some a) → st'.heap a = st.heap a)
  | [], st, st', h => by cases h; exact ⟨rfl, rfl, fun _ _ => rfl⟩
  | c :: l, st, st', h => by
    simp only [applyBins] at h
    split at h
    · cases h
    · rename_i a ha
      obtain ⟨x1, x2, x3⟩ := frame_applyBins f b l _ st' h
      refine ⟨x1, x2, ?_⟩
      intro a' ha'
      rw [x3 a' (fun c' hc' => ha' c' (List.mem_cons_of_mem _ hc'))]
      refine Function.update_of_ne ?_ _ _
      rintro rfl
      exact ha' c (List.mem_cons_self ..) ha

theorem frame_update (L : B.Lawful) (dyn : Bool) (bi : Idx d) (f : D → D) (st : St B D) (hI : Inv L st) (st' : St B D)
    (h : update dyn bi f st = some st') : Frame st st' := by
  have hG := good_of_update L dyn bi f st hI st' h
  obtain ⟨b, st1, h1, hI1, _, hb, _⟩ := getAllocate_spec L dyn bi st hI hG
  unfold update at h
  simp only [h1] at h
  obtain ⟨x1, x2, x3⟩ := frame_applyBins f b _ st1 st' h
  refine (frame_getAllocate L dyn bi st hI b st1 h1).trans ⟨by rw [x1], ?_, ?_⟩
  · intro a _ ho
    refine x3 a ?_
    intro c hc
    rw [twoPow_eq, List.mem_range] at hc
    obtain ⟨a', e1, e2⟩ := hI1.complete bi b hb c hc
    rw [e1]
    rintro ⟨⟩
    exact ho _ _ e2
  · intro c k a hc
    left; unfold dist at hc ⊢; rw [← x2]; exact hc

theorem frame_updateList (L : B.Lawful) (dyn : Bool) : ∀ (l : List (Idx d × (D → D))) (st st' : St B D), Inv L st →
    updateList dyn l st = some st' → Frame st st'
  | [], st, st', _, h => by cases h; exact .refl _
  | e :: l, st, st', hI, h => by
    simp only [updateList] at h
    obtain ⟨st1, h1, h2⟩ := Option.bind_eq_some_iff.1 h
    exact (frame_update L dyn e.1 e.2 st hI st1 h1).trans
      (frame_updateList L dyn l st1 st' ((update_refines L dyn e.1 e.2 st hI).of_some h1).2.1 h2)

theorem frame_allocNeighbours (L : B.Lawful) (dyn : Bool) (bi : Idx d) : ∀ (l : List (Idx d)) (st st' : St B D), Inv L st →
    allocNeighbours dyn bi l st = some st' → Frame st st'
  | [], st, st', _, h => by cases h; exact .refl _
  | o :: l, st, st', hI, h => by
    simp only [St.allocNeighbours] at h
    split at h
    · split at h
      · cases h
      · rename_i b1 st1 h1
        obtain ⟨_, h2, _⟩ := (getAllocate_refines L dyn _ st hI).of_some (st' := st1) (by rw [h1]; rfl)
        exact (frame_getAllocate L dyn _ st hI b1 st1 h1).trans (frame_allocNeighbours L dyn bi l st1 st' h2 h)
    · exact frame_allocNeighbours L dyn bi l st st' hI h

theorem frame_allocPartial (L : B.Lawful) (dyn : Bool) (exp : D → Bool) (bi : Idx d) (st st' : St B D) (hI : Inv L st)
    (h : allocPartial dyn exp bi st = some st') : Frame st st' := by
  simp only [St.allocPartial] at h
  split at h
  · cases h
  · split at h
    · split at h
      · cases h
      · rename_i st1 h1
        cases h
        exact (frame_allocNeighbours L dyn bi _ st st1 hI h1).congr rfl rfl rfl
    · cases h; exact .refl _

theorem frame_allocPartialList (L : B.Lawful) (dyn : Bool) (exp : D → Bool) : ∀ (l : List (Idx d)) (st st' : St B D), RInv L dyn st →
    (∀ bi ∈ l, bi ∈ st.abs.allocated) → allocPartialList dyn exp l st = some st' → Frame st st'
  | [], st, st', _, _, h => by cases h; exact .refl _
  | bi :: l, st, st', hI, hal, h => by
    simp only [St.allocPartialList] at h
    split at h
    · cases h
    · rename_i st1 h1
      have hal1 : ∀ b ∈ [bi], b ∈ st.abs.allocated := by
        intro b hb; rw [List.mem_singleton] at hb; subst hb; exact hal _ (List.mem_cons_self ..)
      have hl : allocPartialList dyn exp [bi] st = some st1 := by simp only [St.allocPartialList, h1]
      have hI1 := allocPartialList_closed L dyn exp [bi] st hI hal1 (by simp) st1 hl
      have hG := ((allocPartialList_spec L dyn exp [bi] st hI hal1).1 st1 hl).2.2.1
      exact (frame_allocPartial L dyn exp bi st st1 hI.inv h1).trans
        (frame_allocPartialList L dyn exp l st1 st' hI1 (fun b hb => hG.allocated (hal b (List.mem_cons_of_mem _ hb))) h)

theorem frame_coreStep (L : B.Lawful) (dyn : Bool) (exp : D → Bool) (op : CoreOp d) (st st' : St B D) (hI : RInv L dyn st)
    (h : coreStep dyn exp op st = some st') : Frame st st' := by
  cases op with
  | bundleAt bi =>
    simp only [coreStep, getDistributionBundle] at h
    split at h
    · cases hg : getAllocate dyn bi st with
      | none => rw [hg] at h; cases h
      | some r => rw [hg] at h; cases h; exact frame_getAllocate L dyn bi st hI.inv r.1 r.2 hg
    · cases h; exact .refl _
  | get bi =>
    simp only [coreStep] at h
    cases hg : getBundle dyn bi st with
    | none => rw [hg] at h; cases h
    | some r => rw [hg] at h; cases h; exact .refl _
  | expandOne bi =>
    simp only [coreStep] at h
    split at h
    · cases h
    · cases h; exact .refl _
    · exact frame_allocPartial L dyn exp bi st st' hI.inv h
  | expandAll =>
    refine frame_allocPartialList L dyn exp _ st st' hI ?_ h
    intro b hb
    rw [mem_allocated_iff]; exact (mem_bundleIndices L st hI.inv b).1 hb

end St

section
variable {K : Type} [Field K] [LinearOrder K] [FloorRing K] {d : Nat} {B : Backend d}

theorem frame_gridStep (L : B.Lawful) (g : Geo K d) (dyn : Bool) (exp : Multiset (Pt K d) → Bool) (op : GridOp K d)
    (st st' : St B (Multiset (Pt K d))) (hI : RInv L dyn st) (h : gridStep g dyn exp op st = some st') : Frame st st' := by
  cases op with
  | insert pose cloud => exact frame_updateList L dyn _ st st' hI.inv h
  | core op => exact frame_coreStep L dyn exp op st st' hI h

theorem gridStep_rinv (L : B.Lawful) (g : Geo K d) (dyn : Bool) (exp : Multiset (Pt K d) → Bool) (op : GridOp K d)
    (st st' : St B (Multiset (Pt K d))) (hI : RInv L dyn st) (h : gridStep g dyn exp op st = some st') : RInv L dyn st' :=
  (gridRun_spec L g dyn exp [op] st st' hI (by simp only [gridRun, h]; rfl)).1

end

/-! ### independence of unshared twins -/

section
variable {d : Nat} {B : Backend d} {D : Type} [Inhabited D]

/-- Nothing is shared. -/
structure Apart (L : B.Lawful) (dyn : Bool) (T : Twin B D) : Prop where
  shareS : ∀ c, T.shareS c = false
  shareB : T.shareB = false
  invO : RInv L dyn T.viewO
  invC : RInv L dyn T.viewC
  disj : ∀ c k c' k' a, T.viewO.dist c k = some a → T.viewC.dist c' k' ≠ some a

theorem St.RInv.frame {L : B.Lawful} {dyn : Bool} {st st' : St B D} (h : RInv L dyn st)
    (e1 : st'.storage = st.storage) (e2 : st'.bundles = st.bundles) (e3 : st'.minB = st.minB) (e4 : st'.maxB = st.maxB)
    (hn : st.next ≤ st'.next) (hh : ∀ c k a, st.dist c k = some a → st'.heap a = st.heap a) :
    RInv L dyn st' ∧ st'.abs = st.abs := by
  have hd : st'.dist = st.dist := by unfold dist; rw [e1]
  have hb : st'.bundle = st.bundle := by unfold bundle; rw [e2]
  have hc : st'.content = st.content := by
    funext c k
    unfold St.content
    rw [hd]
    cases hx : st.dist c k with
    | none => rfl
    | some a => exact congrArg some (hh c k a hx)
  have ha : st'.abs = st.abs := by
    unfold St.abs; rw [hb, hc, e1, e2, e3, e4]
  refine ⟨⟨⟨⟨?_, ?_, ?_⟩, ?_, ?_⟩, ha ▸ h.ainv, ha ▸ h.rng, ha ▸ h.closed⟩, ha⟩
  · intro c; rw [e1]; exact h.inv.store c
  · intro c k a; rw [hd]; intro x; exact lt_of_lt_of_le (h.inv.fresh c k a x) hn
  · rw [hd]; exact h.inv.inj
  · rw [e2]; exact h.inv.bstore
  · rw [hb, hd]; exact h.inv.complete

omit [Inhabited D] in
theorem viewC_putC (T : Twin B D) (st : St B D) : (T.putC st).viewC = st := by
  unfold Twin.viewC Twin.putC
  cases st
  simp only [St.mk.injEq, true_and, and_true]
  constructor
  · funext c; split <;> rfl
  · split <;> rfl

omit [Inhabited D] in
theorem viewO_putO (T : Twin B D) (st : St B D) : (T.putO st).viewO = st := rfl

theorem apart_step (L : B.Lawful) (dyn : Bool) {Op : Type} (f : Op → St B D → Option (St B D))
    (hf : ∀ op st st', RInv L dyn st → f op st = some st' → Frame st st' ∧ RInv L dyn st') (op : Bool × Op)
    (T T' : Twin B D) (hA : Apart L dyn T) (h : T.stepWith f op = some T') :
    Apart L dyn T' ∧ (op.1 = true → T'.viewO.abs = T.viewO.abs ∧ ∃ st, f op.2 T.viewC = some st ∧ T'.viewC = st) ∧
      (op.1 = false → T'.viewC.abs = T.viewC.abs ∧ ∃ st, f op.2 T.viewO = some st ∧ T'.viewO = st) := by
  obtain ⟨b, op⟩ := op
  cases b with
  | false =>
    obtain ⟨st, hs, rfl⟩ := Option.map_eq_some_iff.1 h
    obtain ⟨hF, hI⟩ := hf op _ st hA.invO hs
    have e1 : (T.putO st).viewC.storage = T.viewC.storage := by
      funext c; show (if T.shareS c then _ else _) = (if T.shareS c then _ else _); rw [hA.shareS]; rfl
    have e2 : (T.putO st).viewC.bundles = T.viewC.bundles := by
      show (if T.shareB then _ else _) = (if T.shareB then _ else _); rw [hA.shareB]; rfl
    obtain ⟨x1, x2⟩ := hA.invC.frame (st' := (T.putO st).viewC) e1 e2 rfl rfl hF.next (by
      intro c k a ha
      refine hF.heap a (hA.invC.inv.fresh c k a ha) ?_
      intro c' k' ha'
      exact hA.disj c' k' c k a ha' ha)
    refine ⟨⟨hA.shareS, hA.shareB, by rw [viewO_putO]; exact hI, x1, ?_⟩, fun e => Bool.noConfusion e, fun _ => ⟨x2, st, hs, rfl⟩⟩
    intro c k c' k' a h1 h2
    rw [viewO_putO] at h1
    have h2' : T.viewC.dist c' k' = some a := by unfold dist at h2 ⊢; rw [← e1]; exact h2
    rcases hF.own c k a h1 with x | x
    · exact hA.disj c k c' k' a x h2'
    · have := hA.invC.inv.fresh c' k' a h2'
      exact absurd x (not_le.2 this)
  | true =>
    obtain ⟨st, hs, rfl⟩ := Option.map_eq_some_iff.1 h
    obtain ⟨hF, hI⟩ := hf op _ st hA.invC hs
    have e1 : (T.putC st).viewO.storage = T.viewO.storage := by
      funext c; show (if T.shareS c then _ else _) = _; rw [hA.shareS]; rfl
    have e2 : (T.putC st).viewO.bundles = T.viewO.bundles := by
      show (if T.shareB then _ else _) = _; rw [hA.shareB]; rfl
    obtain ⟨x1, x2⟩ := hA.invO.frame (st' := (T.putC st).viewO) e1 e2 rfl rfl hF.next (by
      intro c k a ha
      refine hF.heap a (hA.invO.inv.fresh c k a ha) ?_
      intro c' k' ha'
      exact hA.disj c k c' k' a ha ha')
    refine ⟨⟨hA.shareS, hA.shareB, x1, by rw [viewC_putC]; exact hI, ?_⟩, fun _ => ⟨x2, st, hs, viewC_putC ..⟩, fun e => Bool.noConfusion e⟩
    intro c k c' k' a h1 h2
    rw [viewC_putC] at h2
    have h1' : T.viewO.dist c k = some a := by unfold dist at h1 ⊢; rw [← e1]; exact h1
    rcases hF.own c' k' a h2 with x | x
    · exact hA.disj c k c' k' a h1' x
    · have := hA.invO.inv.fresh c k a h1'
      exact absurd x (not_le.2 this)

end

/-! ### copies -/

section
variable {d : Nat} {D : Type} [Inhabited D]

/-- a dynamic map with an allocated bundle has no null root -/
theorem roots_of_nonempty (L : (octreeBackend d).Lawful) (st : St (octreeBackend d) D) (hI : Inv L st) (bi : Idx d) (hb : bi ∈ st.abs.allocated) :
    st.bundles.root.isSome = true ∧ ∀ c, c < 2 ^ d → (st.storage c).root.isSome = true := by
  have key : ∀ {V : Type} (t : Octree.Tree d V) (i : Idx d) (v : V), (octreeBackend d).look t i = some v → t.root.isSome = true := by
    intro V t i v h
    unfold Backend.look at h
    split at h
    · have h' : t.get i = some v := h
      unfold Octree.Tree.get at h'
      cases hr : t.root with
      | none => rw [hr] at h'; cases h'
      | some n => rfl
    · cases h
  rw [mem_allocated_iff] at hb
  obtain ⟨b, hb⟩ := Option.isSome_iff_exists.1 hb
  refine ⟨key _ _ _ hb, fun c hc => ?_⟩
  obtain ⟨a, _, ha⟩ := hI.complete bi b hb c hc
  exact key _ _ _ ha

omit [Inhabited D] in
theorem dupCells_spec : ∀ (l : List (Idx d × Nat)) (h : Nat → D) (n : Nat) (s : Arr d Nat), (l.map Prod.fst).Nodup → (∀ e ∈ l, e.2 < n) →
    let r := dupCells l (h, n, s)
    n ≤ r.2.1 ∧ (∀ a, a < n → r.1 a = h a) ∧ r.2.2.size = s.size ∧ r.2.2.offset = s.offset ∧
    (∀ k, k ∉ l.map Prod.fst → r.2.2.cells k = s.cells k) ∧
    (∀ k a, (k, a) ∈ l → ∃ a', r.2.2.cells k = some a' ∧ n ≤ a' ∧ a' < r.2.1 ∧ r.1 a' = h a) ∧
    (∀ k k' a, k ∈ l.map Prod.fst → k' ∈ l.map Prod.fst → r.2.2.cells k = some a → r.2.2.cells k' = some a → k = k')
  | [], h, n, s, _, _ => by
    simp [dupCells]
  | (k0, a0) :: l, h, n, s, hnd, hlt => by
    rw [List.map_cons, List.nodup_cons] at hnd
    obtain ⟨x1, x2, x3, x4, x5, x6, x7⟩ := dupCells_spec l (Function.update h n (h a0)) (n + 1)
      ({ s with cells := Function.update s.cells k0 (some n) }) hnd.2 (fun e he => Nat.lt_succ_of_lt (hlt e (List.mem_cons_of_mem _ he)))
    have a0lt : a0 < n := hlt (k0, a0) (List.mem_cons_self ..)
    have hk0 : (dupCells ((k0, a0) :: l) (h, n, s)).2.2.cells k0 = some n := by
      refine (x5 k0 hnd.1).trans ?_
      exact Function.update_self ..
    refine ⟨by unfold dupCells; omega, ?_, x3, x4, ?_, ?_, ?_⟩
    · intro a ha
      refine (x2 a (Nat.lt_succ_of_lt ha)).trans (Function.update_of_ne (by omega) _ _)
    · intro k hk
      rw [List.map_cons, List.mem_cons, not_or] at hk
      refine (x5 k hk.2).trans (Function.update_of_ne hk.1 _ _)
    · intro k a hka
      rcases List.mem_cons.1 hka with e | hka
      · cases e
        refine ⟨n, hk0, le_refl _, by unfold dupCells; omega, ?_⟩
        refine (x2 n (Nat.lt_succ_self n)).trans (Function.update_self ..)
      · obtain ⟨a', y1, y2, y3, y4⟩ := x6 k a hka
        refine ⟨a', y1, by omega, y3, y4.trans (Function.update_of_ne ?_ _ _)⟩
        have := hlt (k, a) (List.mem_cons_of_mem _ hka)
        simp only at this
        omega
    · intro k k' a hk hk' e e'
      have big : ∀ k, k ∈ l.map Prod.fst → (dupCells ((k0, a0) :: l) (h, n, s)).2.2.cells k = some a → n < a := by
        intro k hk e
        obtain ⟨p, hp, rfl⟩ := List.mem_map.1 hk
        obtain ⟨a', y1, y2, _⟩ := x6 p.1 p.2 hp
        have : some a = some a' := e.symm.trans y1
        cases this
        omega
      rcases List.mem_cons.1 hk with h1 | h1 <;> rcases List.mem_cons.1 hk' with h2 | h2
      · rw [h1, h2]
      · have := big k' h2 e'
        rw [show k = k0 from h1, hk0] at e; cases e; omega
      · have := big k h1 e
        rw [show k' = k0 from h2, hk0] at e'; cases e'; omega
      · exact x7 k k' a h1 h2 e e'

omit [Inhabited D] in
/-- the copied storages hold equal contents in new objects -/
theorem dupStorages_spec (st : St (arrayBackend d) D) (hf : ∀ c k a, st.dist c k = some a → a < st.next) : ∀ (m : Nat) (h : Nat → D) (n : Nat) (S : Nat → Arr d Nat),
    st.next ≤ n → (∀ a, a < st.next → h a = st.heap a) →
    let r := dupStorages st.storage m (h, n, S)
    n ≤ r.2.1 ∧ (∀ a, a < n → r.1 a = h a) ∧ (∀ c, m ≤ c → r.2.2 c = S c) ∧
    (∀ c, c < m → ∀ k, ((arrayBackend d).look (r.2.2 c) k = none ∧ st.dist c k = none) ∨
      ∃ a a', (arrayBackend d).look (r.2.2 c) k = some a' ∧ st.dist c k = some a ∧ n ≤ a' ∧ a' < r.2.1 ∧ r.1 a' = st.heap a)
  | 0, h, n, S, _, _ => by simp [dupStorages]
  | c + 1, h, n, S, hn, hh => by
    have htr : ∀ k a, (k, a) ∈ (arrayBackend d).traverse (st.storage c) ↔ st.dist c k = some a :=
      fun k a => (arrayLawful d).mem_traverse (st.storage c) trivial k a
    have hlt : ∀ e ∈ (arrayBackend d).traverse (st.storage c), e.2 < n := by
      intro e he
      exact lt_of_lt_of_le (hf c e.1 e.2 ((htr e.1 e.2).1 he)) hn
    obtain ⟨x1, x2, x3, x4, x5, x6, _⟩ := dupCells_spec ((arrayBackend d).traverse (st.storage c)) h n { st.storage c with cells := fun _ => none }
      ((arrayLawful d).nodup_traverse (st.storage c) trivial) hlt
    set r := dupCells ((arrayBackend d).traverse (st.storage c)) (h, n, { st.storage c with cells := fun _ => none }) with hr
    obtain ⟨y1, y2, y3, y4⟩ := dupStorages_spec st hf c r.1 r.2.1 (Function.update S c r.2.2) (le_trans hn x1)
      (fun a ha => (x2 a (lt_of_lt_of_le ha hn)).trans (hh a ha))
    have hstep : dupStorages st.storage (c + 1) (h, n, S) = dupStorages st.storage c (r.1, r.2.1, Function.update S c r.2.2) := rfl
    simp only [hstep]
    refine ⟨le_trans x1 y1, fun a ha => (y2 a (lt_of_lt_of_le ha x1)).trans (x2 a ha), ?_, ?_⟩
    · intro c' hc'
      rw [y3 c' (by omega)]
      exact Function.update_of_ne (by omega) _ _
    · intro c' hc' k
      rcases Nat.lt_succ_iff_lt_or_eq.1 hc' with hlt' | rfl
      · rcases y4 c' hlt' k with z | ⟨a, a', z1, z2, z3, z4, z5⟩
        · exact Or.inl z
        · exact Or.inr ⟨a, a', z1, z2, le_trans x1 z3, z4, z5⟩
      · rw [y3 c' (le_refl _), Function.update_self]
        have hbox : r.2.2.InBox k ↔ (st.storage c').InBox k := by unfold Arr.InBox; rw [x3, x4]
        cases hd : st.dist c' k with
        | none =>
          refine Or.inl ⟨?_, rfl⟩
          have : k ∉ ((arrayBackend d).traverse (st.storage c')).map Prod.fst := by
            intro hk
            obtain ⟨e, he, rfl⟩ := List.mem_map.1 hk
            rw [(htr e.1 e.2).1 he] at hd; cases hd
          unfold Backend.look
          split
          · exact (x5 k this)
          · rfl
        | some a =>
          obtain ⟨a', z1, z2, z3, z4⟩ := x6 k a ((htr k a).2 hd)
          refine Or.inr ⟨a, a', ?_, rfl, z2, lt_of_lt_of_le z3 y1, ?_⟩
          · unfold Backend.look
            have hin : (st.storage c').InBox k := by
              unfold dist Backend.look at hd
              split at hd
              · rename_i hx; exact of_decide_eq_true hx
              · cases hd
            rw [if_pos (decide_eq_true (hbox.2 hin))]
            exact z1
          · rw [y2 a' z3, z4]
            exact hh a (hf c' k a hd)

end
end Ndt
