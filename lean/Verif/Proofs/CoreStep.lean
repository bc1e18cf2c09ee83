import Verif.Proofs.Core

/-! Invariants of core operations on the concrete state. -/

namespace Ndt

namespace Abs
variable {d : Nat} {D : Type} [Inhabited D]

/-- indices the bundle storage covers are machine integers (dynamic maps) -/
def Rng (dyn : Bool) (A : Abs d D) : Prop :=
  dyn = true → ∀ bi, A.okB bi = true → ∀ a, -2147483648 ≤ bi a ∧ bi a ≤ 2147483647

/-- every bundle marked as expanded has all its valid neighbours allocated -/
def Closed (dyn : Bool) (A : Abs d D) : Prop :=
  ∀ bi, A.flags bi = some false → ∀ bj, A.valid dyn bj = true → Spec.Neighbour bi bj → bj ∈ A.allocated

theorem Closed.alloc {dyn : Bool} {A : Abs d D} (h : A.Closed dyn) (bi : Idx d) : (A.alloc dyn bi).Closed dyn := by
  intro b hb bj hv hn
  rw [allocated_alloc]
  rw [St.valid_alloc] at hv
  rw [flags_alloc] at hb
  apply Set.mem_insert_of_mem
  split at hb
  · rename_i e
    subst e
    cases hf : A.flags b with
    | none => rw [hf] at hb; cases hb
    | some x => rw [hf] at hb; exact h b (by rw [hf]; exact hb) bj hv hn
  · exact h b hb bj hv hn

theorem Closed.upd {dyn : Bool} {A : Abs d D} (h : A.Closed dyn) (bi : Idx d) (f : D → D) : (A.upd dyn bi f).Closed dyn := h.alloc bi

/-- everything that core operations preserve -/
structure Keeps (dyn : Bool) (A A' : Abs d D) : Prop where
  okB : A'.okB = A.okB
  okD : A'.okD = A.okD
  valid : ∀ i, A'.valid dyn i = A.valid dyn i
  static : dyn = false → A'.minB = A.minB ∧ A'.maxB = A.maxB
  allocated : A.allocated ⊆ A'.allocated

theorem Keeps.refl (dyn : Bool) (A : Abs d D) : Keeps dyn A A := ⟨rfl, rfl, fun _ => rfl, fun _ => ⟨rfl, rfl⟩, fun _ h => h⟩
theorem Keeps.trans {dyn : Bool} {A A' A'' : Abs d D} (h : Keeps dyn A A') (g : Keeps dyn A' A'') : Keeps dyn A A'' :=
  ⟨g.okB.trans h.okB, g.okD.trans h.okD, fun i => (g.valid i).trans (h.valid i),
   fun e => ⟨(g.static e).1.trans (h.static e).1, (g.static e).2.trans (h.static e).2⟩, fun _ x => g.allocated (h.allocated x)⟩
theorem Grow.keeps {dyn : Bool} {A A' : Abs d D} (h : Grow dyn A A') : Keeps dyn A A' :=
  ⟨h.okB, h.okD, h.valid, h.static, h.allocated⟩
theorem Keeps.good {dyn : Bool} {A A' : Abs d D} (h : Keeps dyn A A') (bi : Idx d) : A'.Good bi ↔ A.Good bi := by
  unfold Good; rw [h.okB, h.okD]
theorem keeps_upd (dyn : Bool) (bi : Idx d) (f : D → D) (A : Abs d D) : Keeps dyn A (A.upd dyn bi f) where
  okB := upd_okB ..
  okD := upd_okD ..
  valid := fun i => St.valid_alloc dyn bi i A
  static := by
    intro hd; subst hd
    show (A.alloc false bi).minB = _ ∧ (A.alloc false bi).maxB = _
    unfold Abs.alloc; split <;> exact ⟨rfl, rfl⟩
  allocated := by rw [allocated_upd]; exact fun x hx => Set.mem_insert_of_mem _ hx

end Abs

namespace St
variable {d : Nat} {B : Backend d} {D : Type} [Inhabited D]

open Abs (Keeps Grow)

/-- invariant of reachable maps -/
structure RInv (L : B.Lawful) (dyn : Bool) (st : St B D) : Prop where
  inv : Inv L st
  ainv : Abs.AInv dyn st.abs
  rng : st.abs.Rng dyn
  closed : st.abs.Closed dyn

theorem mem_allocated_iff (st : St B D) (bi : Idx d) : bi ∈ st.abs.allocated ↔ (st.bundle bi).isSome = true := by
  rw [Abs.mem_allocated]
  show ((st.bundle bi).map _).isSome = true ↔ _
  rw [Option.isSome_map]

theorem mem_bundleIndices (L : B.Lawful) (st : St B D) (hI : Inv L st) (bi : Idx d) :
    bi ∈ st.bundleIndices ↔ (st.bundle bi).isSome = true := by
  unfold bundleIndices bundle
  rw [List.mem_map]
  constructor
  · rintro ⟨⟨i, b⟩, h, rfl⟩
    rw [(L.mem_traverse _ hI.bstore i b).1 h]; rfl
  · intro h
    obtain ⟨b, hb⟩ := Option.isSome_iff_exists.1 h
    exact ⟨(bi, b), (L.mem_traverse _ hI.bstore bi b).2 hb, rfl⟩

theorem nodup_bundleIndices (L : B.Lawful) (st : St B D) (hI : Inv L st) : st.bundleIndices.Nodup :=
  L.nodup_traverse _ hI.bstore

/-- `allocPartialList` refines its abstract counterpart -/
theorem allocPartialList_spec (L : B.Lawful) (dyn : Bool) (exp : D → Bool) : ∀ (l : List (Idx d)) (st : St B D), RInv L dyn st →
    (∀ bi ∈ l, bi ∈ st.abs.allocated) →
    (∀ st', allocPartialList dyn exp l st = some st' →
      Inv L st' ∧ st'.abs = st.abs.allocPartialList dyn exp l ∧ Grow dyn st.abs st'.abs ∧
      (∀ bi ∈ l, l.Nodup → st.abs.trigger exp bi → GoodNb dyn bi (offsets d) st.abs)) ∧
    ((∀ bi ∈ l, GoodNb dyn bi (offsets d) st.abs) → ∃ st', allocPartialList dyn exp l st = some st')
  | [], st, hI, _ => ⟨fun st' h => by cases h; exact ⟨hI.inv, rfl, .refl, fun _ h => absurd h List.not_mem_nil⟩, fun _ => ⟨st, rfl⟩⟩
  | bi :: l, st, hI, hal => by
    have hr := allocPartial_refines L dyn exp bi st hI.inv (hal bi (List.mem_cons_self ..))
    simp only [allocPartialList]
    cases hp : allocPartial dyn exp bi st with
    | none =>
      rw [hp] at hr
      refine ⟨fun _ h => (by cases h), fun h => ?_⟩
      obtain ⟨s, hs, _⟩ := hr.1 (fun _ _ => h bi (List.mem_cons_self ..)); cases hs
    | some st1 =>
      rw [hp] at hr
      obtain ⟨hg, hI1, hA1⟩ := hr.of_some rfl
      have hG : Grow dyn st.abs st1.abs := by
        rw [hA1]; exact Abs.grow_allocPartial dyn exp bi st.abs (fun ht => hg ht.1 ht.2)
      have hcl : st1.abs.Closed dyn := by
        have := (Abs.flags_allocPartialList dyn exp [bi] st.abs hI.ainv hI.rng (by simp)
          (by intro b hb; rw [List.mem_singleton] at hb; subst hb; exact hal b (List.mem_cons_self ..))
          (by intro b hb ht; rw [List.mem_singleton] at hb; subst hb; exact hg ht.1 ht.2)).2
        intro b hb bj hv hn
        rw [hG.valid] at hv
        rw [hA1] at hb ⊢
        rw [Abs.mem_allocated]
        have e : ∀ x, (st.abs.allocPartial dyn exp bi).flags x = _ := this
        rw [e] at hb ⊢
        simp only [List.mem_singleton, exists_eq_left] at hb ⊢
        by_cases h1 : b = bi ∧ st.abs.trigger exp b
        · obtain ⟨rfl, h1⟩ := h1
          split
          · rfl
          · rw [if_pos ⟨hv, h1, hn⟩]; rfl
        · rw [if_neg h1] at hb
          have hf : st.abs.flags b = some false := by
            split at hb
            · cases hf : st.abs.flags b with
              | none => rw [hf] at hb; cases hb
              | some x => rw [hf] at hb; exact hb
            · exact hb
          have := hI.closed b hf bj hv hn
          rw [Abs.mem_allocated] at this
          split
          · rfl
          · split
            · rfl
            · exact this
      have hI1' : RInv L dyn st1 := ⟨hI1, hI.ainv.grow hG hI.rng, by intro hd bi' hb; exact hI.rng hd bi' (by rw [← hG.okB]; exact hb), hcl⟩
      have hgn : ∀ b, GoodNb dyn b (offsets d) st1.abs ↔ GoodNb dyn b (offsets d) st.abs := by
        intro b; unfold GoodNb; simp only [hG.valid, hG.good]
      obtain ⟨ih1, ih2⟩ := allocPartialList_spec L dyn exp l st1 hI1' (fun b hb => hG.allocated (hal b (List.mem_cons_of_mem _ hb)))
      refine ⟨?_, ?_⟩
      · intro st' h
        obtain ⟨x1, x2, x3, x4⟩ := ih1 st' h
        refine ⟨x1, ?_, hG.trans x3, ?_⟩
        · rw [x2, hA1]; rfl
        · intro b hb hnd ht
          rw [List.nodup_cons] at hnd
          rcases List.mem_cons.1 hb with rfl | hb
          · exact hg ht.1 ht.2
          · refine (hgn b).1 (x4 b hb hnd.2 ?_)
            have hne : b ≠ bi := fun e => hnd.1 (e ▸ hb)
            have hba := hal b (List.mem_cons_of_mem _ hb)
            refine ⟨?_, by rw [Abs.expandable_grow hI.ainv hG exp b hba]; exact ht.2⟩
            rw [hA1, Abs.flags_allocPartial, if_neg hne, ht.1]
            simp
      · intro h
        exact ih2 (fun b hb => (hgn b).2 (h b (List.mem_cons_of_mem _ hb)))

theorem allocPartialList_closed (L : B.Lawful) (dyn : Bool) (exp : D → Bool) : ∀ (l : List (Idx d)) (st : St B D), RInv L dyn st →
    (∀ bi ∈ l, bi ∈ st.abs.allocated) → l.Nodup → ∀ st', allocPartialList dyn exp l st = some st' → RInv L dyn st' := by
  intro l st hI hal hnd st' h
  obtain ⟨x1, x2, x3, x4⟩ := (allocPartialList_spec L dyn exp l st hI hal).1 st' h
  refine ⟨x1, hI.ainv.grow x3 hI.rng, by intro hd bi' hb; exact hI.rng hd bi' (by rw [← x3.okB]; exact hb), ?_⟩
  have e := (Abs.flags_allocPartialList dyn exp l st.abs hI.ainv hI.rng hnd hal (fun b hb ht => x4 b hb hnd ht)).2
  intro b hb bj hv hn
  rw [x3.valid] at hv
  rw [x2] at hb ⊢
  rw [Abs.mem_allocated, e]
  rw [e] at hb
  by_cases h1 : b ∈ l ∧ st.abs.trigger exp b
  · split
    · rfl
    · rw [if_pos ⟨hv, b, h1.1, h1.2, hn⟩]; rfl
  · rw [if_neg h1] at hb
    have hf : st.abs.flags b = some false := by
      split at hb
      · cases hf : st.abs.flags b with
        | none => rw [hf] at hb; cases hb
        | some x => rw [hf] at hb; exact hb
      · exact hb
    have := hI.closed b hf bj hv hn
    rw [Abs.mem_allocated] at this
    split
    · rfl
    · split
      · rfl
      · exact this

/-- all core operations preserve the invariant and only grow the map -/
theorem coreStep_spec (L : B.Lawful) (dyn : Bool) (exp : D → Bool) (op : CoreOp d) (st : St B D) (hI : RInv L dyn st) (st' : St B D)
    (h : coreStep dyn exp op st = some st') : RInv L dyn st' ∧ Grow dyn st.abs st'.abs := by
  cases op with
  | bundleAt bi =>
    simp only [coreStep, getDistributionBundle] at h
    split at h
    · rename_i hv
      cases hg : getAllocate dyn bi st with
      | none => rw [hg] at h; cases h
      | some p =>
        obtain ⟨b, st1⟩ := p
        rw [hg] at h
        cases h
        have hr := getAllocate_refines L dyn bi st hI.inv
        rw [hg] at hr
        obtain ⟨hgood, hI1, hA1⟩ := hr.of_some rfl
        have hG : Grow dyn st.abs st1.abs := by rw [hA1]; exact .alloc bi .refl hgood
        refine ⟨⟨hI1, hI.ainv.grow hG hI.rng, by intro hd bi' hb; exact hI.rng hd bi' (by rw [← hG.okB]; exact hb), ?_⟩, hG⟩
        rw [hA1]; exact hI.closed.alloc bi
    · cases h; exact ⟨hI, .refl⟩
  | get bi =>
    simp only [coreStep] at h
    cases hg : getBundle dyn bi st with
    | none => rw [hg] at h; cases h
    | some p => rw [hg] at h; cases h; exact ⟨hI, .refl⟩
  | expandOne bi =>
    simp only [coreStep] at h
    cases hg : getBundle dyn bi st with
    | none => rw [hg] at h; cases h
    | some p =>
      cases p with
      | none => rw [hg] at h; cases h; exact ⟨hI, .refl⟩
      | some b =>
        rw [hg] at h
        simp only at h
        have hb : bi ∈ st.abs.allocated := by
          unfold getBundle at hg
          rw [mem_allocated_iff]
          unfold bundle Backend.look
          split at hg
          · split at hg
            · rename_i hok
              rw [if_pos hok]; cases hg' : B.get st.bundles bi with
              | none => rw [hg'] at hg; cases hg
              | some x => rfl
            · cases hg
          · cases hg
        have h' : allocPartialList dyn exp [bi] st = some st' := by
          simp only [allocPartialList, h]
        have hm : ∀ b ∈ [bi], b ∈ st.abs.allocated := by intro b hb'; rw [List.mem_singleton] at hb'; subst hb'; exact hb
        exact ⟨allocPartialList_closed L dyn exp [bi] st hI hm (by simp) st' h',
          ((allocPartialList_spec L dyn exp [bi] st hI hm).1 st' h').2.2.1⟩
  | expandAll =>
    have hm : ∀ b ∈ st.bundleIndices, b ∈ st.abs.allocated := by
      intro b hb; rw [mem_allocated_iff]; exact (mem_bundleIndices L st hI.inv b).1 hb
    exact ⟨allocPartialList_closed L dyn exp _ st hI hm (nodup_bundleIndices L st hI.inv) st' h,
      ((allocPartialList_spec L dyn exp _ st hI hm).1 st' h).2.2.1⟩

/-- core operations stay in contract if every valid index is covered by the storages -/
theorem coreStep_total (L : B.Lawful) (dyn : Bool) (exp : D → Bool) (op : CoreOp d) (st : St B D) (hI : RInv L dyn st)
    (hv : ∀ i, st.abs.valid dyn i = true → st.abs.Good i) : ∃ st', coreStep dyn exp op st = some st' := by
  have hnb : ∀ bi, GoodNb dyn bi (offsets d) st.abs := fun bi o _ h => hv _ h
  cases op with
  | bundleAt bi =>
    simp only [coreStep, getDistributionBundle]
    split
    · rename_i h
      obtain ⟨b, st1, h1, _⟩ := getAllocate_spec L dyn bi st hI.inv (hv bi h)
      rw [h1]; exact ⟨st1, rfl⟩
    · exact ⟨st, rfl⟩
  | get bi =>
    simp only [coreStep, getBundle]
    split
    · rename_i h
      rw [if_pos (show B.ok st.bundles bi = true from (hv bi h).1)]; exact ⟨st, rfl⟩
    · exact ⟨st, rfl⟩
  | expandOne bi =>
    simp only [coreStep, getBundle]
    by_cases h : st.valid dyn bi = true
    · rw [if_pos h, if_pos (show B.ok st.bundles bi = true from (hv bi h).1)]
      cases hg : B.get st.bundles bi with
      | none => exact ⟨st, rfl⟩
      | some b =>
        have hb : bi ∈ st.abs.allocated := by
          rw [mem_allocated_iff]; unfold bundle Backend.look
          rw [if_pos (show B.ok st.bundles bi = true from (hv bi h).1), hg]; rfl
        obtain ⟨s, hs, _⟩ := (allocPartial_refines L dyn exp bi st hI.inv hb).1 (fun _ _ => hnb bi)
        exact ⟨s, hs⟩
    · rw [if_neg h]; exact ⟨st, rfl⟩
  | expandAll =>
    have hm : ∀ b ∈ st.bundleIndices, b ∈ st.abs.allocated := by
      intro b hb; rw [mem_allocated_iff]; exact (mem_bundleIndices L st hI.inv b).1 hb
    exact (allocPartialList_spec L dyn exp _ st hI hm).2 (fun b _ => hnb b)

theorem RInv.upds {L : B.Lawful} {dyn : Bool} : ∀ (l : List (Idx d × (D → D))) (st st' : St B D), RInv L dyn st →
    updateList dyn l st = some st' → RInv L dyn st' ∧ st'.abs = st.abs.upds dyn l ∧ Keeps dyn st.abs st'.abs
  | [], st, st', hI, h => by cases h; exact ⟨hI, rfl, .refl ..⟩
  | e :: l, st, st', hI, h => by
    simp only [updateList] at h
    obtain ⟨st1, h1, h2⟩ := Option.bind_eq_some_iff.1 h
    have hr := update_refines L dyn e.1 e.2 st hI.inv
    obtain ⟨hg, hI1, hA1⟩ := hr.of_some h1
    have hk : Keeps dyn st.abs st1.abs := by rw [hA1]; exact Abs.keeps_upd ..
    have hR : RInv L dyn st1 := by
      refine ⟨hI1, ?_, by intro hd bi' hb; exact hI.rng hd bi' (by rw [← hk.okB]; exact hb), ?_⟩
      · rw [hA1]; exact hI.ainv.upd e.1 e.2 (fun hd => hI.rng hd e.1 hg.1)
      · rw [hA1]; exact hI.closed.upd e.1 e.2
    obtain ⟨x1, x2, x3⟩ := RInv.upds l st1 st' hR h2
    exact ⟨x1, by rw [x2, hA1]; rfl, hk.trans x3⟩

end St

/-! ### initial states -/
namespace Kind
variable {d : Nat} {D : Type} [Inhabited D]

/-- the laws of the storage of a map -/
def lawful : (k : Kind d) → k.backend.Lawful
  | dynamic _ _ => octreeLawful d
  | static _ _ => arrayLawful d

theorem init_bundle (k : Kind d) (bi : Idx d) : (k.init D).bundle bi = none := by
  cases k with
  | dynamic g g' =>
    show (octreeBackend d).look (Octree.Tree.empty g') bi = none
    unfold Backend.look
    split <;> rfl
  | static size lo =>
    show (arrayBackend d).look (Arr.fresh _ lo) bi = none
    unfold Backend.look
    split <;> rfl

theorem init_dist (k : Kind d) (c : Nat) (i : Idx d) : (k.init D).dist c i = none := by
  cases k with
  | dynamic g g' =>
    show (octreeBackend d).look (Octree.Tree.empty (g c)) i = none
    unfold Backend.look
    split <;> rfl
  | static size lo =>
    show (arrayBackend d).look (if c = 0 then _ else _) i = none
    unfold Backend.look
    split <;> split <;> rfl

theorem init_content (k : Kind d) (c : Nat) (i : Idx d) : (k.init D).abs.content c i = none := by
  show (k.init D).content c i = none
  unfold St.content; rw [init_dist]; rfl

theorem init_flags (k : Kind d) (bi : Idx d) : (k.init D).abs.flags bi = none := by
  show ((k.init D).bundle bi).map _ = none
  rw [init_bundle]; rfl

theorem init_allocated (k : Kind d) : (k.init D).abs.allocated = ∅ := by
  ext bi
  rw [Abs.mem_allocated, init_flags]
  simp

theorem init_rinv (k : Kind d) : St.RInv k.lawful k.dyn (k.init D) where
  inv := by
    refine ⟨⟨?_, ?_, ?_⟩, ?_, ?_⟩
    · intro c
      cases k with
      | dynamic g g' => exact Octree.TInv.empty _
      | static size lo => trivial
    · intro c i a h; rw [init_dist] at h; cases h
    · intro c i c' i' a h; rw [init_dist] at h; cases h
    · cases k with
      | dynamic g g' => exact Octree.TInv.empty _
      | static size lo => trivial
    · intro bi b h; rw [init_bundle] at h; cases h
  ainv := by
    refine ⟨?_, ?_, ?_⟩
    · intro c i; rw [init_content, init_allocated]; simp
    · intro hd
      left
      refine ⟨init_allocated k, ?_⟩
      cases k with
      | dynamic g g' => exact fun a => ⟨rfl, rfl⟩
      | static size lo => cases hd
    · intro _ bi hb; rw [init_allocated] at hb; exact absurd hb (Set.notMem_empty _)
  rng := by
    intro hd bi hb a
    cases k with
    | dynamic g g' =>
      have : Spec.InRange bi := of_decide_eq_true hb
      have := this a
      omega
    | static size lo => cases hd
  closed := by intro bi hb; rw [init_flags] at hb; cases hb

/-- static maps: every valid bundle index, and the distribution indices of its bundle, lie inside the arrays -/
theorem static_good (size : Fin d → Nat) (lo i : Idx d) (h : ((Kind.static size lo).init D).abs.valid false i = true) :
    ((Kind.static size lo).init D).abs.Good i := by
  have hv : ∀ a, lo a ≤ i a ∧ i a < lo a + (size a * 2 : Nat) - 1 := by
    have : (false || decide _) = true := h
    rw [Bool.false_or] at this
    exact of_decide_eq_true this
  constructor
  · show decide (Arr.InBox (V := Bundle) ⟨fun a => size a * 2, lo, fun _ => none⟩ i) = true
    refine decide_eq_true ?_
    intro a
    have := hv a
    refine ⟨this.1, ?_⟩
    show i a < lo a + ((size a * 2 : Nat) : Int)
    omega
  · intro c hc
    show decide (Arr.InBox (V := Nat) (if c = 0 then _ else _) (generateIndex i c)) = true
    refine decide_eq_true ?_
    intro a
    have hva := hv a
    have hg : generateIndex i c a = if c.testBit a.1 then (i a + 1) / 2 else i a / 2 := getIndexInner_eq _ _ _
    rw [hg]
    split
    · rename_i h0
      subst h0
      simp only [Nat.zero_testBit, Bool.false_eq_true, if_false]
      show lo a / 2 ≤ i a / 2 ∧ i a / 2 < lo a / 2 + (size a : Int)
      push_cast at hva
      omega
    · show lo a / 2 ≤ _ ∧ _ < lo a / 2 + ((size a + 1 : Nat) : Int)
      push_cast at hva ⊢
      split <;> omega

theorem static_valid (size : Fin d → Nat) (lo i : Idx d) :
    ((Kind.static size lo).init D).abs.valid false i = true ↔ ∀ a, lo a ≤ i a ∧ i a < lo a + 2 * (size a : Int) - 1 := by
  unfold Abs.valid
  rw [Bool.false_or, decide_eq_true_iff]
  refine forall_congr' fun a => ?_
  show lo a ≤ i a ∧ i a < lo a + ((size a * 2 : Nat) : Int) - 1 ↔ _
  push_cast
  omega

end Kind
end Ndt
