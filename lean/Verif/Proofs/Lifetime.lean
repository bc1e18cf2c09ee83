import Verif.Model.Lifetime
import Verif.Proofs.Copy

/-! How operations change the objects that a map owns, without assuming that its bundles point to them. -/

namespace Ndt
open St

namespace St
variable {d : Nat} {B : Backend d} {D : Type}

structure W (L : B.Lawful) (st : St B D) : Prop where
  store : ∀ c, L.Inv (st.storage c)
  fresh : ∀ c k a, st.dist c k = some a → a < st.next
  bstore : L.Inv st.bundles

structure Grow (L : B.Lawful) (st st' : St B D) : Prop where
  w : W L st'
  next : st.next ≤ st'.next
  own : ∀ c k a, st'.dist c k = some a → st.dist c k = some a ∨ st.next ≤ a
  keep : ∀ c k a, st.dist c k = some a → st'.dist c k = some a
  cover : ∀ a, st.next ≤ a → a < st'.next → ∃ c k, c < 2 ^ d ∧ st'.dist c k = some a
  bkeep : ∀ bi b, st.bundle bi = some b → ∃ b', st'.bundle bi = some b' ∧ b'.data = b.data
  bnew : ∀ bi b, st.bundle bi = none → st'.bundle bi = some b → ∀ c a, b.data c = some a → ∃ k, c < 2 ^ d ∧ st'.dist c k = some a
  okb : ∀ i, B.ok st'.bundles i = B.ok st.bundles i

theorem Grow.refl {L : B.Lawful} {st : St B D} (h : W L st) : Grow L st st :=
  ⟨h, le_refl _, fun _ _ _ h => .inl h, fun _ _ _ h => h, fun _ h1 h2 => absurd h2 (not_lt.2 h1), fun _ b h => ⟨b, h, rfl⟩,
    fun _ _ h1 h2 => (by rw [h1] at h2; cases h2), fun _ => rfl⟩

theorem Grow.trans {L : B.Lawful} {s t u : St B D} (h : Grow L s t) (g : Grow L t u) : Grow L s u where
  w := g.w
  next := le_trans h.next g.next
  own := by
    intro c k a x
    rcases g.own c k a x with y | y
    · exact h.own c k a y
    · exact .inr (le_trans h.next y)
  keep := fun c k a x => g.keep c k a (h.keep c k a x)
  cover := by
    intro a h1 h2
    by_cases ha : a < t.next
    · obtain ⟨c, k, hc, x⟩ := h.cover a h1 ha
      exact ⟨c, k, hc, g.keep c k a x⟩
    · exact g.cover a (not_lt.1 ha) h2
  bkeep := by
    intro bi b x
    obtain ⟨b1, y1, y2⟩ := h.bkeep bi b x
    obtain ⟨b2, z1, z2⟩ := g.bkeep bi b1 y1
    exact ⟨b2, z1, z2.trans y2⟩
  bnew := by
    intro bi b x y c a hb
    cases ht : t.bundle bi with
    | none => exact g.bnew bi b ht y c a hb
    | some b1 =>
      obtain ⟨b2, z1, z2⟩ := g.bkeep bi b1 ht
      rw [y] at z1; cases z1
      rw [z2] at hb
      obtain ⟨k, hc, hk⟩ := h.bnew bi b1 x ht c a hb
      exact ⟨k, hc, g.keep c k a hk⟩
  okb := fun i => (g.okb i).trans (h.okb i)

/-- only the objects themselves and the bounds change -/
theorem Grow.congr {L : B.Lawful} {s t u : St B D} (h : Grow L s t) (e2 : u.next = t.next) (e3 : u.storage = t.storage) (e4 : u.bundles = t.bundles) : Grow L s u := by
  have hd : u.dist = t.dist := by unfold dist; rw [e3]
  have hb : u.bundle = t.bundle := by unfold bundle; rw [e4]
  refine ⟨⟨?_, ?_, ?_⟩, ?_, ?_, ?_, ?_, ?_, ?_, ?_⟩
  · rw [e3]; exact h.w.store
  · rw [hd, e2]; exact h.w.fresh
  · rw [e4]; exact h.w.bstore
  · rw [e2]; exact h.next
  · rw [hd]; exact h.own
  · rw [hd]; exact h.keep
  · rw [hd, e2]; exact h.cover
  · rw [hb]; exact h.bkeep
  · rw [hb, hd]; exact h.bnew
  · rw [e4]; exact h.okb

variable [Inhabited D]

theorem grow_getAllocateDist (L : B.Lawful) (c : Nat) (hc : c < 2 ^ d) (k : Idx d) (st : St B D) (hW : W L st) (a : Nat) (st' : St B D)
    (h : getAllocateDist c k st = some (a, st')) : Grow L st st' ∧ st'.dist c k = some a ∧ st'.bundles = st.bundles := by
  have hok := getAllocateDist_ok c k st _ h
  unfold getAllocateDist at h
  rw [if_pos hok] at h
  have hl := look_of_ok B (st.storage c) k hok
  cases hg : B.get (st.storage c) k with
  | some a' =>
    rw [hg] at h
    cases h
    exact ⟨.refl hW, by unfold dist; rw [hl, hg], rfl⟩
  | none =>
    rw [hg] at h
    cases h
    have hnone : st.dist c k = none := by unfold dist; rw [hl, hg]
    set st' : St B D := { st with
        heap := Function.update st.heap st.next default
        next := st.next + 1
        storage := Function.update st.storage c (B.insert (st.storage c) k st.next) } with hst'
    have hdist : ∀ c' k', st'.dist c' k' = if c' = c ∧ k' = k then some st.next else st.dist c' k' := by
      intro c' k'
      unfold dist
      by_cases e : c' = c
      · subst e
        simp only [hst', Function.update_self]
        rw [L.look_insert _ _ _ _ (hW.store c') hok (by rw [hl, hg])]
        simp
      · simp [hst', e]
    have hself : st'.dist c k = some st.next := by rw [hdist]; simp
    refine ⟨⟨⟨?_, ?_, hW.bstore⟩, Nat.le_succ _, ?_, ?_, ?_, fun _ b h => ⟨b, h, rfl⟩, ?_, fun _ => rfl⟩, hself, rfl⟩
    · intro c'
      by_cases e : c' = c
      · subst e; simp only [hst', Function.update_self]; exact L.inv_insert _ _ _ (hW.store c') hok
      · simp only [hst', Function.update_of_ne e]; exact hW.store c'
    · intro c' k' a h
      rw [hdist] at h
      split at h
      · cases h; exact Nat.lt_succ_self _
      · exact Nat.lt_succ_of_lt (hW.fresh _ _ _ h)
    · intro c' k' a h
      rw [hdist] at h
      split at h
      · cases h; exact .inr (le_refl _)
      · exact .inl h
    · intro c' k' a h
      rw [hdist]
      split
      · rename_i x; obtain ⟨rfl, rfl⟩ := x; rw [hnone] at h; cases h
      · exact h
    · intro a h1 h2
      have : a = st.next := by
        have : a < st.next + 1 := h2
        omega
      exact ⟨c, k, hc, this ▸ hself⟩
    · intro bi b h1 h2
      rw [show st.bundle bi = some b from h2] at h1; cases h1

theorem grow_allocBins (L : B.Lawful) : ∀ (l : List (Nat × Idx d)) (b : Bundle) (st : St B D), (∀ e ∈ l, e.1 < 2 ^ d) → W L st →
    ∀ b' st', allocBins l b st = some (b', st') → Grow L st st' ∧ st'.bundles = st.bundles ∧
      ∀ c a, b'.data c = some a → b.data c = some a ∨ ∃ k, c < 2 ^ d ∧ st'.dist c k = some a
  | [], b, st, _, hW, b', st', h => by cases h; exact ⟨.refl hW, rfl, fun _ _ h => .inl h⟩
  | (c, k) :: l, b, st, hl, hW, b', st', h => by
    simp only [allocBins] at h
    split at h
    · exact grow_allocBins L l b st (fun e he => hl e (List.mem_cons_of_mem _ he)) hW b' st' h
    · split at h
      · cases h
      · rename_i a st1 hg
        have hc : c < 2 ^ d := hl (c, k) (List.mem_cons_self ..)
        obtain ⟨x1, x2, x3⟩ := grow_getAllocateDist L c hc k st hW a st1 hg
        obtain ⟨y1, y2, y3⟩ := grow_allocBins L l _ st1 (fun e he => hl e (List.mem_cons_of_mem _ he)) x1.w b' st' h
        refine ⟨x1.trans y1, y2.trans x3, fun c' a' h' => ?_⟩
        rcases y3 c' a' h' with z | z
        · by_cases e : c' = c
          · subst e
            simp only [Function.update_self] at z
            cases z
            exact .inr ⟨k, hc, y1.keep _ _ _ x2⟩
          · simp only [Function.update_of_ne e] at z
            exact .inl z
        · exact .inr z

theorem applyIndices_bins (bi : Idx d) : ∀ e ∈ applyIndices bi 0 (twoPow d), e.1 < 2 ^ d := by
  intro e he
  rw [applyIndices_list] at he
  obtain ⟨c, hc, rfl⟩ := List.mem_map.1 he
  exact List.mem_range.1 hc

theorem grow_getAllocate (L : B.Lawful) (dyn : Bool) (bi : Idx d) (st : St B D) (hW : W L st) (b : Bundle) (st' : St B D)
    (h : getAllocate dyn bi st = some (b, st')) : Grow L st st' ∧ st'.bundle bi = some b := by
  unfold getAllocate at h
  split at h
  · rename_i hok
    have hl := look_of_ok B st.bundles bi hok
    split at h
    · rename_i hg
      cases h; exact ⟨.refl hW, hl.trans hg⟩
    · rename_i hg
      simp only at h
      split at h
      · cases h
      · rename_i b2 st2 hb
        cases h
        have hlook : B.look st.bundles bi = none := by rw [hl, hg]
        have hok1 : B.ok (B.insert st.bundles bi Bundle.new) bi = true := by rw [L.ok_insert]; exact hok
        have hins := L.inv_insert st.bundles bi Bundle.new hW.bstore hok
        have hW1 : W L ({ st with bundles := B.insert st.bundles bi Bundle.new } : St B D) := ⟨hW.store, hW.fresh, hins⟩
        obtain ⟨x, xb, xd⟩ := grow_allocBins L _ _ _ (applyIndices_bins bi) hW1 _ _ hb
        have hbun : ∀ bj, B.look (B.modify st2.bundles bi (fun _ => b)) bj = if bj = bi then some b else st.bundle bj := by
          intro bj
          rw [xb]
          show B.look (B.modify (B.insert st.bundles bi Bundle.new) bi (fun _ => b)) bj = _
          rw [L.look_modify _ _ _ _ hins hok1, L.look_insert _ _ _ _ hW.bstore hok hlook, L.look_insert _ _ _ _ hW.bstore hok hlook]
          by_cases e : bj = bi
          · simp [e]
          · simp only [e, if_false]; rfl
        have key : Grow L st { st2 with bundles := B.modify st2.bundles bi (fun _ => b) } := by
          refine ⟨⟨x.w.store, x.w.fresh, ?_⟩, x.next, x.own, x.keep, x.cover, ?_, ?_, ?_⟩
          · refine L.inv_modify _ _ _ x.w.bstore ?_
            rw [xb]; exact hok1
          · intro bj b0 h0
            refine ⟨b0, ?_, rfl⟩
            show B.look (B.modify st2.bundles bi (fun _ => b)) bj = _
            rw [hbun, if_neg]
            · exact h0
            · rintro rfl
              rw [show st.bundle bj = none from hlook] at h0; cases h0
          · intro bj b0 h0 h1 c a hc
            have h1' : B.look (B.modify st2.bundles bi (fun _ => b)) bj = some b0 := h1
            rw [hbun] at h1'
            split at h1'
            · cases h1'
              rcases xd c a hc with z | z
              · cases z
              · exact z
            · rw [h0] at h1'; cases h1'
          · intro i
            show B.ok (B.modify st2.bundles bi (fun _ => b)) i = _
            rw [L.ok_modify, xb]
            exact L.ok_insert _ _ _ _
        refine ⟨key.congr ?_ ?_ ?_, ?_⟩
        · unfold updateIndices; split <;> rfl
        · unfold updateIndices; split <;> rfl
        · unfold updateIndices; split <;> rfl
        · have : (updateIndices dyn bi { st2 with bundles := B.modify st2.bundles bi (fun _ => b) }).bundle bi = B.look (B.modify st2.bundles bi (fun _ => b)) bi := by
            unfold updateIndices; split <;> rfl
          rw [this, hbun, if_pos rfl]
  · cases h

omit [Inhabited D] in
theorem applyBins_keeps (f : D → D) (b : Bundle) : ∀ (l : List Nat) (st st' : St B D), applyBins f b l st = some st' →
    st'.next = st.next ∧ st'.storage = st.storage ∧ st'.bundles = st.bundles
  | [], st, st', h => by cases h; exact ⟨rfl, rfl, rfl⟩
  | c :: l, st, st', h => by
    simp only [applyBins] at h
    split at h
    · cases h
    · obtain ⟨x1, x2, x3⟩ := applyBins_keeps f b l _ st' h
      exact ⟨x1, x2, x3⟩

theorem grow_update (L : B.Lawful) (dyn : Bool) (bi : Idx d) (f : D → D) (st : St B D) (hW : W L st) (st' : St B D)
    (h : update dyn bi f st = some st') : Grow L st st' := by
  unfold update at h
  split at h
  · cases h
  · rename_i b st1 h1
    obtain ⟨x1, x2, x3⟩ := applyBins_keeps f b _ st1 st' h
    exact (grow_getAllocate L dyn bi st hW b st1 h1).1.congr x1 x2 x3

theorem grow_updateList (L : B.Lawful) (dyn : Bool) : ∀ (l : List (Idx d × (D → D))) (st st' : St B D), W L st →
    updateList dyn l st = some st' → Grow L st st'
  | [], st, st', hW, h => by cases h; exact .refl hW
  | e :: l, st, st', hW, h => by
    simp only [updateList] at h
    obtain ⟨st1, h1, h2⟩ := Option.bind_eq_some_iff.1 h
    have x := grow_update L dyn e.1 e.2 st hW st1 h1
    exact x.trans (grow_updateList L dyn l st1 st' x.w h2)

theorem grow_allocNeighbours (L : B.Lawful) (dyn : Bool) (bi : Idx d) : ∀ (l : List (Idx d)) (st st' : St B D), W L st →
    allocNeighbours dyn bi l st = some st' → Grow L st st'
  | [], st, st', hW, h => by cases h; exact .refl hW
  | o :: l, st, st', hW, h => by
    simp only [St.allocNeighbours] at h
    split at h
    · split at h
      · cases h
      · rename_i b1 st1 h1
        have x := (grow_getAllocate L dyn _ st hW b1 st1 h1).1
        exact x.trans (grow_allocNeighbours L dyn bi l st1 st' x.w h)
    · exact grow_allocNeighbours L dyn bi l st st' hW h

theorem grow_allocPartial (L : B.Lawful) (dyn : Bool) (exp : D → Bool) (bi : Idx d) (st st' : St B D) (hW : W L st) (hok : B.ok st.bundles bi = true)
    (h : allocPartial dyn exp bi st = some st') : Grow L st st' := by
  simp only [St.allocPartial] at h
  split at h
  · cases h
  · split at h
    · split at h
      · cases h
      · rename_i st1 h1
        cases h
        have x := grow_allocNeighbours L dyn bi _ st st1 hW h1
        refine x.trans ?_
        have hok1 : B.ok st1.bundles bi = true := by rw [x.okb]; exact hok
        have hlook := fun bj => L.look_modify st1.bundles bi bj (fun b : Bundle => { b with expand := false }) x.w.bstore hok1
        refine ⟨⟨x.w.store, x.w.fresh, L.inv_modify _ _ _ x.w.bstore hok1⟩, le_refl _, fun _ _ _ h => .inl h, fun _ _ _ h => h,
          fun _ h1 h2 => absurd h2 (not_lt.2 h1), ?_, ?_, fun i => L.ok_modify _ _ _ _⟩
        · intro bj b hb
          unfold bundle at hb ⊢
          dsimp only
          rw [hlook]
          split
          · rename_i e; subst e; rw [hb]; exact ⟨_, rfl, rfl⟩
          · exact ⟨b, hb, rfl⟩
        · intro bj b h0 hb
          unfold bundle at h0 hb
          dsimp only at hb
          rw [hlook] at hb
          split at hb
          · rename_i e; subst e; rw [h0] at hb; cases hb
          · rw [h0] at hb; cases hb
    · cases h; exact .refl hW

theorem grow_allocPartialList (L : B.Lawful) (dyn : Bool) (exp : D → Bool) : ∀ (l : List (Idx d)) (st st' : St B D), W L st →
    (∀ bi ∈ l, B.ok st.bundles bi = true) → allocPartialList dyn exp l st = some st' → Grow L st st'
  | [], st, st', hW, _, h => by cases h; exact .refl hW
  | bi :: l, st, st', hW, hal, h => by
    simp only [St.allocPartialList] at h
    split at h
    · cases h
    · rename_i st1 h1
      have x := grow_allocPartial L dyn exp bi st st1 hW (hal bi (List.mem_cons_self ..)) h1
      exact x.trans (grow_allocPartialList L dyn exp l st1 st' x.w (fun b hb => by rw [x.okb]; exact hal b (List.mem_cons_of_mem _ hb)) h)

theorem grow_coreStep (L : B.Lawful) (dyn : Bool) (exp : D → Bool) (op : CoreOp d) (st st' : St B D) (hW : W L st)
    (h : coreStep dyn exp op st = some st') : Grow L st st' := by
  cases op with
  | bundleAt bi =>
    simp only [coreStep, getDistributionBundle] at h
    split at h
    · cases hg : getAllocate dyn bi st with
      | none => rw [hg] at h; cases h
      | some r => rw [hg] at h; cases h; exact (grow_getAllocate L dyn bi st hW r.1 r.2 hg).1
    · cases h; exact .refl hW
  | get bi =>
    simp only [coreStep] at h
    cases hg : getBundle dyn bi st with
    | none => rw [hg] at h; cases h
    | some r => rw [hg] at h; cases h; exact .refl hW
  | expandOne bi =>
    simp only [coreStep] at h
    split at h
    · cases h
    · cases h; exact .refl hW
    · rename_i b hb
      refine grow_allocPartial L dyn exp bi st st' hW ?_ h
      unfold getBundle at hb
      split at hb
      · split at hb
        · assumption
        · cases hb
      · cases hb
  | expandAll =>
    refine grow_allocPartialList L dyn exp _ st st' hW ?_ h
    intro bi hb
    obtain ⟨e, he, rfl⟩ := List.mem_map.1 hb
    have := (L.mem_traverse _ hW.bstore e.1 e.2).1 he
    unfold Backend.look at this
    split at this
    · assumption
    · cases this

end St

section
variable {K : Type} [Field K] [LinearOrder K] [FloorRing K] {d : Nat} {B : Backend d}

theorem grow_gridStep (L : B.Lawful) (g : Geo K d) (dyn : Bool) (exp : Multiset (Pt K d) → Bool) (op : GridOp K d)
    (st st' : St B (Multiset (Pt K d))) (hW : W L st) (h : gridStep g dyn exp op st = some st') : Grow L st st' := by
  cases op with
  | insert pose cloud => exact grow_updateList L dyn _ st st' hW h
  | core op => exact grow_coreStep L dyn exp op st st' hW h

theorem grow_gridRun (L : B.Lawful) (g : Geo K d) (dyn : Bool) (exp : Multiset (Pt K d) → Bool) : ∀ (ops : List (GridOp K d))
    (st st' : St B (Multiset (Pt K d))), W L st → gridRun g dyn exp ops st = some st' → Grow L st st'
  | [], st, st', hW, h => by cases h; exact .refl hW
  | op :: l, st, st', hW, h => by
    obtain ⟨st1, h1, h2⟩ := Option.bind_eq_some_iff.1 h
    have x := grow_gridStep L g dyn exp op st st1 hW h1
    exact x.trans (grow_gridRun L g dyn exp l st1 st' x.w h2)

end

section
variable {d : Nat} {B : Backend d} {D : Type}

theorem mem_owned (L : B.Lawful) (st : St B D) (h : ∀ c, L.Inv (st.storage c)) (a : Nat) :
    a ∈ ownedObjects B st.storage ↔ ∃ c k, c < 2 ^ d ∧ st.dist c k = some a := by
  unfold ownedObjects
  simp only [List.mem_flatMap, List.mem_range, List.mem_map, twoPow_eq]
  constructor
  · rintro ⟨c, hc, e, he, rfl⟩
    exact ⟨c, e.1, hc, (L.mem_traverse _ (h c) e.1 e.2).1 he⟩
  · rintro ⟨c, k, hc, hk⟩
    exact ⟨c, hc, (k, a), (L.mem_traverse _ (h c) k a).2 hk, rfl⟩

end
end Ndt
