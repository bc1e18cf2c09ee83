import Verif.Proofs.MapAbs
import Mathlib.Tactic.Ring

/-! Core operations (lookups, allocation, expansion) on the abstract state. -/

namespace Ndt
namespace Abs
variable {d : Nat} {D : Type} [Inhabited D]

/-- `A'` arises from `A` by allocations and by clearing expand flags only. -/
inductive Grow (dyn : Bool) (A : Abs d D) : Abs d D → Prop
  | refl : Grow dyn A A
  | alloc {A' : Abs d D} (bi : Idx d) : Grow dyn A A' → A'.Good bi → Grow dyn A (A'.alloc dyn bi)
  | expanded {A' : Abs d D} (bi : Idx d) : Grow dyn A A' → Grow dyn A (A'.setExpanded bi)

theorem Grow.trans {dyn : Bool} {A A' A'' : Abs d D} (h : Grow dyn A A') (g : Grow dyn A' A'') : Grow dyn A A'' := by
  induction g with
  | refl => exact h
  | alloc bi _ hG ih => exact .alloc bi ih hG
  | expanded bi _ ih => exact .expanded bi ih

theorem Grow.okB {dyn : Bool} {A A' : Abs d D} (h : Grow dyn A A') : A'.okB = A.okB := by
  induction h with
  | refl => rfl
  | alloc bi _ _ ih => rw [alloc_okB, ih]
  | expanded bi _ ih => exact ih

theorem Grow.okD {dyn : Bool} {A A' : Abs d D} (h : Grow dyn A A') : A'.okD = A.okD := by
  induction h with
  | refl => rfl
  | alloc bi _ _ ih => rw [alloc_okD, ih]
  | expanded bi _ ih => exact ih

theorem Grow.good {dyn : Bool} {A A' : Abs d D} (h : Grow dyn A A') (bi : Idx d) : A'.Good bi ↔ A.Good bi := by
  unfold Good; rw [h.okB, h.okD]

theorem Grow.valid {dyn : Bool} {A A' : Abs d D} (h : Grow dyn A A') (i : Idx d) : A'.valid dyn i = A.valid dyn i := by
  induction h with
  | refl => rfl
  | alloc bi _ _ ih => rw [St.valid_alloc, ih]
  | expanded bi _ ih => exact ih

theorem Grow.val {dyn : Bool} {A A' : Abs d D} (h : Grow dyn A A') (c : Nat) (k : Idx d) : A'.val c k = A.val c k := by
  induction h with
  | refl => rfl
  | alloc bi _ _ ih => rw [val_alloc, ih]
  | expanded bi _ ih => exact ih

theorem Grow.allocated {dyn : Bool} {A A' : Abs d D} (h : Grow dyn A A') : A.allocated ⊆ A'.allocated := by
  induction h with
  | refl => exact fun _ h => h
  | alloc bi _ _ ih => rw [allocated_alloc]; exact fun x hx => Set.mem_insert_of_mem _ (ih hx)
  | expanded bi _ ih => rw [allocated_setExpanded]; exact ih

theorem Grow.static {dyn : Bool} {A A' : Abs d D} (h : Grow dyn A A') (hd : dyn = false) : A'.minB = A.minB ∧ A'.maxB = A.maxB := by
  subst hd
  induction h with
  | refl => exact ⟨rfl, rfl⟩
  | @alloc A' bi _ _ ih =>
    have : (A'.alloc false bi).minB = A'.minB ∧ (A'.alloc false bi).maxB = A'.maxB := by unfold Abs.alloc; split <;> exact ⟨rfl, rfl⟩
    rw [this.1, this.2]; exact ih
  | expanded bi _ ih => exact ih

theorem content_alloc_of_some (dyn : Bool) (bi : Idx d) (A : Abs d D) (c : Nat) (k : Idx d) (x : D) (h : A.content c k = some x) :
    (A.alloc dyn bi).content c k = some x := by
  unfold Abs.alloc
  split
  · exact h
  · simp only [h]
    split <;> rfl

theorem Grow.content {dyn : Bool} {A A' : Abs d D} (h : Grow dyn A A') (c : Nat) (k : Idx d) (x : D) (hx : A.content c k = some x) :
    A'.content c k = some x := by
  induction h with
  | refl => exact hx
  | alloc bi _ _ ih => exact content_alloc_of_some _ _ _ _ _ _ ih
  | expanded bi _ ih => exact ih

theorem AInv.grow {dyn : Bool} {A A' : Abs d D} (hA : AInv dyn A) (h : Grow dyn A A')
    (hr : dyn = true → ∀ bi, A.okB bi = true → ∀ a, -2147483648 ≤ bi a ∧ bi a ≤ 2147483647) : AInv dyn A' := by
  induction h with
  | refl => exact hA
  | alloc bi h hG ih => exact ih.alloc bi (fun hd => hr hd bi (by rw [← h.okB]; exact hG.1))
  | expanded bi _ ih => exact ih.setExpanded bi

theorem flags_alloc (dyn : Bool) (bi bj : Idx d) (A : Abs d D) :
    (A.alloc dyn bi).flags bj = if bj = bi then some ((A.flags bi).getD true) else A.flags bj := by
  unfold Abs.alloc
  split
  · rename_i h
    by_cases e : bj = bi
    · subst e
      obtain ⟨x, hx⟩ := Option.isSome_iff_exists.1 h
      rw [if_pos rfl, hx]; rfl
    · rw [if_neg e]
  · rename_i h
    have : A.flags bi = none := by simpa using h
    by_cases e : bj = bi
    · subst e; simp [this]
    · simp [e]

theorem flags_upd (dyn : Bool) (bi bj : Idx d) (f : D → D) (A : Abs d D) :
    (A.upd dyn bi f).flags bj = if bj = bi then some ((A.flags bi).getD true) else A.flags bj := flags_alloc dyn bi bj A

theorem flags_setExpanded (bi bj : Idx d) (A : Abs d D) :
    (A.setExpanded bi).flags bj = if bj = bi then (A.flags bi).map (fun _ => false) else A.flags bj := by
  unfold setExpanded
  by_cases e : bj = bi
  · subst e; simp
  · simp [e]

/-! ### neighbourhoods -/

theorem mem_offsets (o : Idx d) : o ∈ St.offsets d ↔ ∀ a, -1 ≤ o a ∧ o a ≤ 1 := by
  unfold St.offsets
  rw [mem_boxList]
  refine forall_congr' fun a => ?_
  constructor <;> intro h <;> constructor <;> omega

theorem neighbour_iff (bi bj : Idx d) : Spec.Neighbour bi bj ↔ ∃ o ∈ St.offsets d, bj = fun a => bi a + o a := by
  constructor
  · intro h
    refine ⟨fun a => bj a - bi a, ?_, ?_⟩
    · rw [mem_offsets]; intro a; exact abs_le.1 (h a)
    · funext a; ring
  · rintro ⟨o, ho, rfl⟩ a
    rw [mem_offsets] at ho
    rw [show bi a + o a - bi a = o a by ring]
    exact abs_le.2 (ho a)

theorem grow_allocNeighbours (dyn : Bool) (bi : Idx d) : ∀ (l : List (Idx d)) (A : Abs d D), St.GoodNb dyn bi l A →
    Grow dyn A (A.allocNeighbours dyn bi l)
  | [], A, _ => .refl
  | o :: l, A, h => by
    simp only [allocNeighbours, List.foldl_cons]
    have hl : St.GoodNb dyn bi l A := fun o ho => h o (List.mem_cons_of_mem _ ho)
    split
    · rename_i hv
      have h1 : Grow dyn A (A.alloc dyn (fun a => bi a + o a)) := .alloc _ .refl (h o (List.mem_cons_self ..) hv)
      refine h1.trans (grow_allocNeighbours dyn bi l _ ?_)
      intro o ho hv'
      rw [h1.good]; exact hl o ho (by rw [← h1.valid]; exact hv')
    · exact grow_allocNeighbours dyn bi l A hl

theorem flags_allocNeighbours (dyn : Bool) (bi : Idx d) : ∀ (l : List (Idx d)) (A : Abs d D) (bj : Idx d),
    (A.allocNeighbours dyn bi l).flags bj =
      if A.valid dyn bj = true ∧ ∃ o ∈ l, bj = fun a => bi a + o a then some ((A.flags bj).getD true) else A.flags bj
  | [], A, bj => by simp [allocNeighbours]
  | o :: l, A, bj => by
    simp only [allocNeighbours, List.foldl_cons]
    split
    · rename_i hv
      refine (flags_allocNeighbours dyn bi l _ bj).trans ?_
      rw [St.valid_alloc, flags_alloc]
      by_cases e : bj = fun a => bi a + o a
      · subst e
        rw [if_pos rfl]
        have hp : A.valid dyn (fun a => bi a + o a) = true ∧ ∃ o' ∈ o :: l, (fun a => bi a + o a) = fun a => bi a + o' a :=
          ⟨hv, o, List.mem_cons_self .., rfl⟩
        rw [if_pos hp]
        split <;> rfl
      · rw [if_neg e]
        simp only [List.mem_cons, exists_eq_or_imp, e, false_or]
    · rename_i hv
      refine (flags_allocNeighbours dyn bi l _ bj).trans ?_
      by_cases e : bj = fun a => bi a + o a
      · subst e
        rw [if_neg (fun h => hv h.1), if_neg (fun h => hv h.1)]
      · simp only [List.mem_cons, exists_eq_or_imp, e, false_or]

instance (bi bj : Idx d) : Decidable (Spec.Neighbour bi bj) := inferInstanceAs (Decidable (∀ a, |bj a - bi a| ≤ 1))

/-- the bundle `bi` is to be expanded -/
def trigger (exp : D → Bool) (A : Abs d D) (bi : Idx d) : Prop := A.flags bi = some true ∧ A.expandable exp bi = true

instance (exp : D → Bool) (A : Abs d D) (bi : Idx d) : Decidable (A.trigger exp bi) :=
  inferInstanceAs (Decidable (_ ∧ _))

theorem grow_allocPartial (dyn : Bool) (exp : D → Bool) (bi : Idx d) (A : Abs d D)
    (h : A.trigger exp bi → St.GoodNb dyn bi (St.offsets d) A) : Grow dyn A (A.allocPartial dyn exp bi) := by
  unfold allocPartial
  split
  · rename_i ht
    exact .expanded bi (grow_allocNeighbours dyn bi _ A (h ht))
  · exact .refl

theorem flags_allocPartial (dyn : Bool) (exp : D → Bool) (bi bj : Idx d) (A : Abs d D) :
    (A.allocPartial dyn exp bi).flags bj =
      if A.trigger exp bi then
        (if bj = bi then some false
         else if A.valid dyn bj = true ∧ Spec.Neighbour bi bj then some ((A.flags bj).getD true) else A.flags bj)
      else A.flags bj := by
  unfold allocPartial
  by_cases ht : A.flags bi = some true ∧ A.expandable exp bi = true
  · rw [if_pos ht, if_pos (show A.trigger exp bi from ht), flags_setExpanded]
    have hself : Spec.Neighbour bi bi := fun a => by simp
    by_cases e : bj = bi
    · subst e
      rw [if_pos rfl, if_pos rfl, flags_allocNeighbours]
      split <;> simp [ht.1]
    · rw [if_neg e, if_neg e, flags_allocNeighbours]
      simp only [neighbour_iff]
  · rw [if_neg ht, if_neg (show ¬ A.trigger exp bi from ht)]

/-- All bins of an allocated bundle exist, so whether it is expandable is not changed by allocations. -/
theorem expandable_grow {dyn : Bool} {A A' : Abs d D} (hA : AInv dyn A) (h : Grow dyn A A') (exp : D → Bool) (bi : Idx d) (hb : bi ∈ A.allocated) :
    A'.expandable exp bi = A.expandable exp bi := by
  unfold expandable
  rw [Bool.eq_iff_iff, List.any_eq_true, List.any_eq_true]
  refine exists_congr fun c => and_congr_right fun hc => ?_
  obtain ⟨x, hx⟩ := Option.isSome_iff_exists.1 ((hA.used c (generateIndex bi c)).2 ⟨List.mem_range.1 hc, bi, hb, rfl⟩)
  rw [hx, h.content _ _ _ hx]

/-- closed form of the flags after processing a list of bundles that were all allocated before -/
theorem flags_allocPartialList (dyn : Bool) (exp : D → Bool)
    : ∀ (l : List (Idx d)) (A : Abs d D), AInv dyn A →
    (dyn = true → ∀ bi, A.okB bi = true → ∀ a, -2147483648 ≤ bi a ∧ bi a ≤ 2147483647) →
    l.Nodup → (∀ bi ∈ l, bi ∈ A.allocated) → (∀ bi ∈ l, A.trigger exp bi → St.GoodNb dyn bi (St.offsets d) A) →
    Grow dyn A (A.allocPartialList dyn exp l) ∧
    ∀ bj, (A.allocPartialList dyn exp l).flags bj =
      if bj ∈ l ∧ A.trigger exp bj then some false
      else if A.valid dyn bj = true ∧ ∃ bi ∈ l, A.trigger exp bi ∧ Spec.Neighbour bi bj then some ((A.flags bj).getD true)
      else A.flags bj
  | [], A, _, _, _, _, _ => ⟨.refl, fun bj => by simp [allocPartialList]⟩
  | bi :: l, A, hA, hr, hnd, hal, hg => by
    have hG := grow_allocPartial dyn exp bi A (hg bi (List.mem_cons_self ..))
    rw [List.nodup_cons] at hnd
    have hflags : ∀ bj, bj ≠ bi → bj ∈ A.allocated → (A.allocPartial dyn exp bi).flags bj = A.flags bj := by
      intro bj hne hb
      rw [flags_allocPartial, if_neg hne]
      obtain ⟨x, hx⟩ := Option.isSome_iff_exists.1 hb
      rw [hx]; simp
    have htrig : ∀ bj ∈ l, ((A.allocPartial dyn exp bi).trigger exp bj ↔ A.trigger exp bj) := by
      intro bj hbj
      have hne : bj ≠ bi := fun e => hnd.1 (e ▸ hbj)
      have hb := hal bj (List.mem_cons_of_mem _ hbj)
      unfold trigger
      rw [hflags bj hne hb, expandable_grow hA hG exp bj hb]
    have hA' := hA.grow hG hr
    obtain ⟨g, ih⟩ := flags_allocPartialList dyn exp l (A.allocPartial dyn exp bi) hA' (by rw [hG.okB]; exact hr) hnd.2
      (fun bj hbj => hG.allocated (hal bj (List.mem_cons_of_mem _ hbj)))
      (fun bj hbj ht o ho hv => by
        rw [hG.good]
        exact hg bj (List.mem_cons_of_mem _ hbj) ((htrig bj hbj).1 ht) o ho (by rw [← hG.valid]; exact hv))
    refine ⟨hG.trans g, ?_⟩
    intro bj
    show (allocPartialList dyn exp l (A.allocPartial dyn exp bi)).flags bj = _
    rw [ih bj, hG.valid]
    have hex : (∃ b ∈ l, (A.allocPartial dyn exp bi).trigger exp b ∧ Spec.Neighbour b bj) ↔
        ∃ b ∈ l, A.trigger exp b ∧ Spec.Neighbour b bj := by
      refine exists_congr fun b => and_congr_right fun hb => ?_
      rw [htrig b hb]
    simp only [hex]
    by_cases h1 : bj ∈ l ∧ A.trigger exp bj
    · rw [if_pos ⟨h1.1, (htrig bj h1.1).2 h1.2⟩, if_pos ⟨List.mem_cons_of_mem _ h1.1, h1.2⟩]
    · have h1' : ¬ (bj ∈ l ∧ (A.allocPartial dyn exp bi).trigger exp bj) := fun h => h1 ⟨h.1, (htrig bj h.1).1 h.2⟩
      rw [if_neg h1']
      by_cases e : bj = bi
      · subst e
        by_cases ht : A.trigger exp bj
        · rw [if_pos (show bj ∈ bj :: l ∧ _ from ⟨List.mem_cons_self .., ht⟩), flags_allocPartial, if_pos ht, if_pos rfl]
          split <;> rfl
        · rw [if_neg (show ¬ (bj ∈ bj :: l ∧ A.trigger exp bj) from fun h => ht h.2), flags_allocPartial, if_neg ht]
          simp only [List.mem_cons, exists_eq_or_imp, ht, false_and, false_or]
      · have h2 : ¬ (bj ∈ bi :: l ∧ A.trigger exp bj) := by
          rintro ⟨h, h'⟩
          rcases List.mem_cons.1 h with h | h
          · exact e h
          · exact h1 ⟨h, h'⟩
        rw [if_neg h2, flags_allocPartial, if_neg e]
        simp only [List.mem_cons, exists_eq_or_imp]
        by_cases ht : A.trigger exp bi
        · simp only [ht, true_and, if_true]
          by_cases hv : A.valid dyn bj = true
          · simp only [hv, true_and]
            by_cases hn : Spec.Neighbour bi bj
            · simp only [hn, true_or, if_true]
              split <;> rfl
            · simp only [hn, false_or, if_false]
          · simp only [hv, false_and]
            simp
        · simp only [ht, false_and, if_false, false_or]

end Abs
end Ndt
