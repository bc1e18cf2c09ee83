import Verif.Proofs.Expand
import Verif.Proofs.OccRun
import Verif.Model.Sampling
import Verif.Spec.Later

/-!
Two maps with the same bundles, contents and bounds behave alike, even if their expand flags differ: a bundle whose flag is cleared has all its
neighbours, so expanding it again has no effect.
-/

namespace Ndt

theorem BothOr.bind {α β γ δ : Type} {R : α → β → Prop} {S : γ → δ → Prop} {x : Option α} {y : Option β} (h : BothOr R x y) {f : α → Option γ} {g : β → Option δ}
    (hfg : ∀ a b, R a b → BothOr S (f a) (g b)) : BothOr S (x.bind f) (y.bind g) := by
  cases x <;> cases y <;> first | exact h.elim | trivial | exact hfg _ _ h

theorem BothOr.of_some {α β : Type} {R : α → β → Prop} {x : Option α} {y : Option β} (h : BothOr R x y) {a : α} (ha : x = some a) : ∃ b, y = some b ∧ R a b := by
  subst ha
  cases y with
  | none => exact h.elim
  | some b => exact ⟨b, rfl, h⟩

theorem BothOr.of_none {α β : Type} {R : α → β → Prop} {x : Option α} {y : Option β} (h : BothOr R x y) (hx : x = none) : y = none := by
  subst hx
  cases y with
  | none => rfl
  | some b => exact h.elim

namespace Abs
variable {d : Nat} {D : Type} [Inhabited D]

/-- equal up to the values of the expand flags and the extents of the storages of distributions -/
structure Sim (A A' : Abs d D) : Prop where
  content : A'.content = A.content
  allocated : A'.allocated = A.allocated
  minB : A'.minB = A.minB
  maxB : A'.maxB = A.maxB
  okB : A'.okB = A.okB

theorem Sim.refl (A : Abs d D) : Sim A A := ⟨rfl, rfl, rfl, rfl, rfl⟩
theorem Sim.symm {A A' : Abs d D} (h : Sim A A') : Sim A' A := ⟨h.content.symm, h.allocated.symm, h.minB.symm, h.maxB.symm, h.okB.symm⟩

theorem Sim.valid {A A' : Abs d D} (h : Sim A A') (dyn : Bool) (i : Idx d) : A'.valid dyn i = A.valid dyn i := by
  unfold Abs.valid; rw [h.minB, h.maxB]

theorem Sim.isSome {A A' : Abs d D} (h : Sim A A') (bi : Idx d) : (A'.flags bi).isSome = (A.flags bi).isSome := by
  rw [Bool.eq_iff_iff, ← mem_allocated, ← mem_allocated, h.allocated]

theorem Sim.val {A A' : Abs d D} (h : Sim A A') (c : Nat) (k : Idx d) : A'.val c k = A.val c k := by
  unfold Abs.val; rw [h.content]

theorem Sim.expandable {A A' : Abs d D} (h : Sim A A') (exp : D → Bool) (bi : Idx d) : A'.expandable exp bi = A.expandable exp bi := by
  unfold Abs.expandable; rw [h.content]

theorem Sim.alloc {A A' : Abs d D} (h : Sim A A') (dyn : Bool) (bi : Idx d) : Sim (A.alloc dyn bi) (A'.alloc dyn bi) := by
  refine ⟨?_, ?_, ?_, ?_, ?_⟩
  · unfold Abs.alloc; rw [h.isSome, h.content]
    split
    · exact h.content
    · rfl
  · rw [allocated_alloc, allocated_alloc, h.allocated]
  · unfold Abs.alloc; rw [h.isSome, h.minB, h.maxB]
    split
    · exact h.minB
    · rfl
  · unfold Abs.alloc; rw [h.isSome, h.minB, h.maxB]
    split
    · exact h.maxB
    · rfl
  · rw [alloc_okB, alloc_okB, h.okB]

theorem Sim.upd {A A' : Abs d D} (h : Sim A A') (dyn : Bool) (bi : Idx d) (f : D → D) : Sim (A.upd dyn bi f) (A'.upd dyn bi f) := by
  have h' := h.alloc dyn bi
  refine ⟨?_, ?_, h'.minB, h'.maxB, h'.okB⟩
  · unfold Abs.upd; simp only [h'.content]
  · rw [allocated_upd, allocated_upd, h.allocated]

theorem tight_unique {S : Set (Idx d)} {lo hi lo' hi' : Idx d} (h : Spec.TightBounds S lo hi) (h' : Spec.TightBounds S lo' hi') : lo' = lo ∧ hi' = hi := by
  rcases h with ⟨rfl, h⟩ | ⟨hne, h⟩
  · rcases h' with ⟨_, h'⟩ | ⟨hne, _⟩
    · exact ⟨funext fun a => (h' a).1.trans (h a).1.symm, funext fun a => (h' a).2.trans (h a).2.symm⟩
    · exact absurd hne Set.not_nonempty_empty
  · rcases h' with ⟨rfl, _⟩ | ⟨_, h'⟩
    · exact absurd hne Set.not_nonempty_empty
    · exact ⟨funext fun a => (h' a).1.unique (h a).1, funext fun a => (h' a).2.unique (h a).2⟩

/-- maps that only grew, to the same set of bundles -/
theorem Sim.grow {dyn : Bool} {A A' A1 A1' : Abs d D} (h : Sim A A') (g : Grow dyn A A1) (g' : Grow dyn A' A1') (i1 : AInv dyn A1) (i1' : AInv dyn A1')
    (ha : A1'.allocated = A1.allocated) : Sim A1 A1' := by
  have hb : A1'.minB = A1.minB ∧ A1'.maxB = A1.maxB := by
    cases dyn with
    | true => exact tight_unique (i1.bounds rfl) (ha ▸ i1'.bounds rfl)
    | false =>
      have e := g.static rfl
      have e' := g'.static rfl
      rw [e.1, e.2, e'.1, e'.2]; exact ⟨h.minB, h.maxB⟩
  refine ⟨?_, ha, hb.1, hb.2, by rw [g.okB, g'.okB, h.okB]⟩
  funext c k
  rcases i1.content_eq c k with ⟨e, hc⟩ | ⟨e, hc⟩
  · rcases i1'.content_eq c k with ⟨e', _⟩ | ⟨_, hc'⟩
    · rw [e, e', g.val, g'.val, h.val]
    · rw [ha] at hc'; exact absurd hc hc'
  · rcases i1'.content_eq c k with ⟨_, hc'⟩ | ⟨e', _⟩
    · rw [ha] at hc'; exact absurd hc' hc
    · rw [e, e']

end Abs

namespace St
variable {d : Nat} {B : Backend d} {D : Type} [Inhabited D]
open Abs (Grow Sim)

theorem good_of_allocated (L : B.Lawful) (st : St B D) (hI : Inv L st) (bi : Idx d) (h : bi ∈ st.abs.allocated) : st.abs.Good bi := by
  rw [mem_allocated_iff] at h
  obtain ⟨b, hb⟩ := Option.isSome_iff_exists.1 h
  refine ⟨?_, ?_⟩
  · show B.ok st.bundles bi = true
    unfold bundle Backend.look at hb
    split at hb
    · assumption
    · cases hb
  · intro c hc
    obtain ⟨a, _, h2⟩ := hI.complete bi b hb c hc
    show B.ok (st.storage c) _ = true
    unfold St.dist Backend.look at h2
    split at h2
    · assumption
    · cases h2

/-- two maps in reachable states that agree up to the expand flags and the extents of the storages -/
structure Alike (L : B.Lawful) (dyn : Bool) (st st' : St B D) : Prop where
  inv : RInv L dyn st
  inv' : RInv L dyn st'
  sim : Sim st.abs st'.abs

/-- two such maps whose storages hold the same of the accepted bundles -/
structure Like (L : B.Lawful) (dyn : Bool) (st st' : St B D) : Prop extends Alike L dyn st st' where
  good : ∀ bi, st.abs.valid dyn bi = true → (st'.abs.Good bi ↔ st.abs.Good bi)

theorem Like.symm {L : B.Lawful} {dyn : Bool} {st st' : St B D} (h : Like L dyn st st') : Like L dyn st' st :=
  ⟨⟨h.inv', h.inv, h.sim.symm⟩, fun bi hv => (h.good bi (by rw [← h.sim.valid]; exact hv)).symm⟩

/-- operations keep the extents of the storages -/
theorem good_keeps {dyn : Bool} {A A' A1 A1' : Abs d D} (h : ∀ bi, A.valid dyn bi = true → (A'.Good bi ↔ A.Good bi)) (k : Abs.Keeps dyn A A1) (k' : Abs.Keeps dyn A' A1') :
    ∀ bi, A1.valid dyn bi = true → (A1'.Good bi ↔ A1.Good bi) := by
  intro bi hv
  rw [k.good, k'.good]
  exact h bi (by rw [← k.valid]; exact hv)

theorem Alike.validEq {L : B.Lawful} {dyn : Bool} {st st' : St B D} (h : Alike L dyn st st') : st'.valid dyn = st.valid dyn :=
  funext fun i => h.sim.valid dyn i

/-- expansion succeeds if the neighbours of the bundles to be expanded are covered by the storages -/
theorem allocPartialList_success (L : B.Lawful) (dyn : Bool) (exp : D → Bool) : ∀ (l : List (Idx d)) (st : St B D), RInv L dyn st →
    (∀ bi ∈ l, bi ∈ st.abs.allocated) → l.Nodup → (∀ bi ∈ l, st.abs.trigger exp bi → GoodNb dyn bi (offsets d) st.abs) →
    ∃ st', allocPartialList dyn exp l st = some st'
  | [], st, _, _, _, _ => ⟨st, rfl⟩
  | bi :: l, st, hI, hal, hnd, hg => by
    rw [List.nodup_cons] at hnd
    obtain ⟨s1, h1, _, hA1⟩ := (allocPartial_refines L dyn exp bi st hI.inv (hal bi (List.mem_cons_self ..))).1
      (fun a b => hg bi (List.mem_cons_self ..) ⟨a, b⟩)
    have hm : ∀ b ∈ [bi], b ∈ st.abs.allocated := by intro b hb'; rw [List.mem_singleton] at hb'; subst hb'; exact hal b (List.mem_cons_self ..)
    have h1' : allocPartialList dyn exp [bi] st = some s1 := by simp only [allocPartialList, h1]
    have hI1 := allocPartialList_closed L dyn exp [bi] st hI hm (by simp) s1 h1'
    have hG := ((allocPartialList_spec L dyn exp [bi] st hI hm).1 s1 h1').2.2.1
    obtain ⟨s2, h2⟩ := allocPartialList_success L dyn exp l s1 hI1 (fun b hb => hG.allocated (hal b (List.mem_cons_of_mem _ hb))) hnd.2 (by
      intro b hb ht
      have hne : b ≠ bi := fun e => hnd.1 (e ▸ hb)
      have hba := hal b (List.mem_cons_of_mem _ hb)
      have ht' : st.abs.trigger exp b := by
        refine ⟨?_, by rw [← Abs.expandable_grow hI.ainv hG exp b hba]; exact ht.2⟩
        have := ht.1
        rw [hA1, Abs.flags_allocPartial, if_neg hne] at this
        obtain ⟨x, hx⟩ := Option.isSome_iff_exists.1 hba
        rw [hx] at this ⊢
        simpa using this
      intro o ho hv
      rw [hG.good]; rw [hG.valid] at hv
      exact hg b (List.mem_cons_of_mem _ hb) ht' o ho hv)
    exact ⟨s2, by simp only [allocPartialList, h1, h2]⟩

/-- after an expansion exactly the old bundles and the valid neighbours of the expanded ones exist -/
theorem mem_allocated_allocPartialList (L : B.Lawful) (dyn : Bool) (exp : D → Bool) (l : List (Idx d)) (st : St B D) (hI : RInv L dyn st)
    (hal : ∀ bi ∈ l, bi ∈ st.abs.allocated) (hnd : l.Nodup) (s1 : St B D) (h : allocPartialList dyn exp l st = some s1) (bj : Idx d) :
    bj ∈ s1.abs.allocated ↔ bj ∈ st.abs.allocated ∨ (st.abs.valid dyn bj = true ∧ ∃ bi ∈ l, st.abs.trigger exp bi ∧ Spec.Neighbour bi bj) := by
  obtain ⟨_, x2, x3, x4⟩ := (allocPartialList_spec L dyn exp l st hI hal).1 s1 h
  have e := (Abs.flags_allocPartialList dyn exp l st.abs hI.ainv hI.rng hnd hal (fun b hb ht => x4 b hb hnd ht)).2 bj
  rw [Abs.mem_allocated, x2, e, Abs.mem_allocated]
  by_cases h1 : bj ∈ l ∧ st.abs.trigger exp bj
  · rw [if_pos h1]
    exact ⟨fun _ => Or.inl (hal bj h1.1), fun _ => rfl⟩
  · rw [if_neg h1]
    by_cases h2 : st.abs.valid dyn bj = true ∧ ∃ bi ∈ l, st.abs.trigger exp bi ∧ Spec.Neighbour bi bj
    · rw [if_pos h2]; exact ⟨fun _ => Or.inr h2, fun _ => rfl⟩
    · rw [if_neg h2]; exact ⟨Or.inl, fun h => h.resolve_right h2⟩

/-- a bundle to be expanded in one of two similar maps is to be expanded in the other, or has all its neighbours -/
theorem Alike.trigger {L : B.Lawful} {dyn : Bool} {st st' : St B D} (h : Alike L dyn st st') (exp : D → Bool) (bi : Idx d) (ht : st'.abs.trigger exp bi) :
    st.abs.trigger exp bi ∨ ∀ bj, st.abs.valid dyn bj = true → Spec.Neighbour bi bj → bj ∈ st.abs.allocated := by
  have hb : bi ∈ st.abs.allocated := by rw [← h.sim.allocated, Abs.mem_allocated, ht.1]; rfl
  obtain ⟨x, hx⟩ := Option.isSome_iff_exists.1 hb
  cases x with
  | true => exact Or.inl ⟨hx, by rw [← h.sim.expandable]; exact ht.2⟩
  | false => exact Or.inr (h.inv.closed bi hx)

theorem Like.allocPartialList {L : B.Lawful} {dyn : Bool} {st st' : St B D} (h : Like L dyn st st') (exp : D → Bool) (l l' : List (Idx d))
    (hal : ∀ bi ∈ l, bi ∈ st.abs.allocated) (hnd : l.Nodup) (hnd' : l'.Nodup) (hl : ∀ bi, bi ∈ l' ↔ bi ∈ l) :
    BothOr (Like L dyn) (St.allocPartialList dyn exp l st) (St.allocPartialList dyn exp l' st') := by
  have hal' : ∀ bi ∈ l', bi ∈ st'.abs.allocated := fun bi hb => by rw [h.sim.allocated]; exact hal bi ((hl bi).1 hb)
  have key : ∀ (s s' : St B D) (q q' : List (Idx d)), Like L dyn s s' → (∀ bi ∈ q, bi ∈ s.abs.allocated) → q.Nodup → (∀ bi ∈ q', bi ∈ s'.abs.allocated) → q'.Nodup →
      (∀ bi, bi ∈ q' ↔ bi ∈ q) → ∀ s1, St.allocPartialList dyn exp q s = some s1 → ∃ s1', St.allocPartialList dyn exp q' s' = some s1' := by
    intro s s' q q' hs hq hqn hq' hqn' hqq s1 h1
    obtain ⟨_, _, _, x4⟩ := (allocPartialList_spec L dyn exp q s hs.inv hq).1 s1 h1
    refine allocPartialList_success L dyn exp q' s' hs.inv' hq' hqn' ?_
    intro bi hb ht o ho hv
    rw [hs.sim.valid] at hv
    rw [hs.good _ hv]
    rcases hs.trigger exp bi ht with ht' | hn
    · exact x4 bi ((hqq bi).1 hb) hqn ht' o ho hv
    · exact good_of_allocated L s hs.inv.inv _ (hn _ hv ((Abs.neighbour_iff bi _).2 ⟨o, ho, rfl⟩))
  cases e : St.allocPartialList dyn exp l st with
  | none =>
    cases e' : St.allocPartialList dyn exp l' st' with
    | none => trivial
    | some s1' =>
      obtain ⟨s1, h1⟩ := key st' st l' l h.symm hal' hnd' hal hnd (fun bi => (hl bi).symm) s1' e'
      rw [e] at h1; cases h1
  | some s1 =>
    obtain ⟨s1', e'⟩ := key st st' l l' h hal hnd hal' hnd' hl s1 e
    rw [e']
    have i1 := allocPartialList_closed L dyn exp l st h.inv hal hnd s1 e
    have i1' := allocPartialList_closed L dyn exp l' st' h.inv' hal' hnd' s1' e'
    have g1 := ((allocPartialList_spec L dyn exp l st h.inv hal).1 s1 e).2.2.1
    have g1' := ((allocPartialList_spec L dyn exp l' st' h.inv' hal').1 s1' e').2.2.1
    refine ⟨⟨i1, i1', h.sim.grow g1 g1' i1.ainv i1'.ainv ?_⟩, good_keeps h.good g1.keeps g1'.keeps⟩
    ext bj
    rw [mem_allocated_allocPartialList L dyn exp l st h.inv hal hnd s1 e, mem_allocated_allocPartialList L dyn exp l' st' h.inv' hal' hnd' s1' e', h.sim.allocated, h.sim.valid]
    constructor
    · rintro (hb | ⟨hv, bi, hbi, ht, hn⟩)
      · exact Or.inl hb
      · rcases h.trigger exp bi ht with ht' | hc
        · exact Or.inr ⟨hv, bi, (hl bi).1 hbi, ht', hn⟩
        · exact Or.inl (hc bj hv hn)
    · rintro (hb | ⟨hv, bi, hbi, ht, hn⟩)
      · exact Or.inl hb
      · rcases h.symm.trigger exp bi ht with ht' | hc
        · exact Or.inr ⟨hv, bi, (hl bi).2 hbi, ht', hn⟩
        · have := hc bj (by rw [h.sim.valid]; exact hv) hn
          rw [h.sim.allocated] at this; exact Or.inl this

theorem Like.getAllocate {L : B.Lawful} {dyn : Bool} {st st' : St B D} (h : Like L dyn st st') (bi : Idx d) (hv : st.valid dyn bi = true) :
    BothOr (Like L dyn) ((St.getAllocate dyn bi st).map Prod.snd) ((St.getAllocate dyn bi st').map Prod.snd) := by
  have r := getAllocate_refines L dyn bi st h.inv.inv
  have r' := getAllocate_refines L dyn bi st' h.inv'.inv
  by_cases hg : st.abs.Good bi
  · obtain ⟨s, e, i, a⟩ := r.1 hg
    obtain ⟨s', e', i', a'⟩ := r'.1 ((h.good bi hv).2 hg)
    rw [e, e']
    have hG : Grow dyn st.abs s.abs := by rw [a]; exact .alloc bi .refl hg
    have hG' : Grow dyn st'.abs s'.abs := by rw [a']; exact .alloc bi .refl ((h.good bi hv).2 hg)
    refine ⟨⟨⟨i, h.inv.ainv.grow hG h.inv.rng, by intro hd bi' hb; exact h.inv.rng hd bi' (by rw [← hG.okB]; exact hb), ?_⟩,
      ⟨i', h.inv'.ainv.grow hG' h.inv'.rng, by intro hd bi' hb; exact h.inv'.rng hd bi' (by rw [← hG'.okB]; exact hb), ?_⟩, ?_⟩, good_keeps h.good hG.keeps hG'.keeps⟩
    · rw [a]; exact h.inv.closed.alloc bi
    · rw [a']; exact h.inv'.closed.alloc bi
    · rw [a, a']; exact h.sim.alloc dyn bi
  · cases e : (St.getAllocate dyn bi st).map Prod.snd with
    | some s => rw [e] at r; exact absurd (r.2 s rfl) hg
    | none =>
      cases e' : (St.getAllocate dyn bi st').map Prod.snd with
      | some s => rw [e'] at r'; exact absurd ((h.good bi hv).1 (r'.2 s rfl)) hg
      | none => trivial

theorem Like.update {L : B.Lawful} {dyn : Bool} {st st' : St B D} (h : Like L dyn st st') (bi : Idx d) (hv : st.valid dyn bi = true) (f : D → D) :
    BothOr (Like L dyn) (St.update dyn bi f st) (St.update dyn bi f st') := by
  have r := update_refines L dyn bi f st h.inv.inv
  have r' := update_refines L dyn bi f st' h.inv'.inv
  by_cases hg : st.abs.Good bi
  · obtain ⟨s, e, i, a⟩ := r.1 hg
    obtain ⟨s', e', i', a'⟩ := r'.1 ((h.good bi hv).2 hg)
    rw [e, e']
    obtain ⟨q, _, kq⟩ := RInv.upds (L := L) (dyn := dyn) [(bi, f)] st s h.inv (by simp [updateList, e])
    obtain ⟨q', _, kq'⟩ := RInv.upds (L := L) (dyn := dyn) [(bi, f)] st' s' h.inv' (by simp [updateList, e'])
    exact ⟨⟨q, q', by rw [a, a']; exact h.sim.upd dyn bi f⟩, good_keeps h.good kq kq'⟩
  · cases e : St.update dyn bi f st with
    | some s => rw [e] at r; exact absurd (r.2 s rfl) hg
    | none =>
      cases e' : St.update dyn bi f st' with
      | some s => rw [e'] at r'; exact absurd ((h.good bi hv).1 (r'.2 s rfl)) hg
      | none => trivial

theorem valid_update (L : B.Lawful) {dyn : Bool} {st s : St B D} (hI : RInv L dyn st) {bi : Idx d} {f : D → D} (h : St.update dyn bi f st = some s) : s.valid dyn = st.valid dyn :=
  funext fun i => (RInv.upds (L := L) (dyn := dyn) [(bi, f)] st s hI (by simp [St.updateList, h])).2.2.valid i

theorem Like.updateList {L : B.Lawful} {dyn : Bool} : ∀ (l : List (Idx d × (D → D))) {st st' : St B D}, Like L dyn st st' → (∀ e ∈ l, st.valid dyn e.1 = true) →
    BothOr (Like L dyn) (St.updateList dyn l st) (St.updateList dyn l st')
  | [], _, _, h, _ => h
  | e :: l, st, st', h, hl => by
    simp only [St.updateList]
    have hu := h.update e.1 (hl e (List.mem_cons_self ..)) e.2
    cases e1 : St.update dyn e.1 e.2 st with
    | none => rw [hu.of_none e1]; trivial
    | some s1 =>
      obtain ⟨s1', e1', h1⟩ := hu.of_some e1
      rw [e1']
      exact h1.updateList l fun x hx => by rw [valid_update L h.inv e1]; exact hl x (List.mem_cons_of_mem _ hx)

/-- looking up a bundle has the same outcome, and the bins it shows have equal contents -/
theorem Alike.getBundle {L : B.Lawful} {dyn : Bool} {st st' : St B D} (h : Alike L dyn st st') (bi : Idx d) :
    BothOr (fun o o' => BothOr (fun b b' => st.bundle bi = some b ∧ st'.bundle bi = some b') o o') (St.getBundle dyn bi st) (St.getBundle dyn bi st') := by
  unfold St.getBundle
  rw [h.validEq, show B.ok st'.bundles bi = B.ok st.bundles bi from congrFun h.sim.okB bi]
  by_cases hv : st.valid dyn bi = true
  · rw [if_pos hv, if_pos hv]
    by_cases hok : B.ok st.bundles bi = true
    · rw [if_pos hok, if_pos hok]
      have hok' : B.ok st'.bundles bi = true := (congrFun h.sim.okB bi).trans hok
      have e1 : st.bundle bi = B.get st.bundles bi := look_of_ok B st.bundles bi hok
      have e2 : st'.bundle bi = B.get st'.bundles bi := look_of_ok B st'.bundles bi hok'
      have hs : (st'.bundle bi).isSome = (st.bundle bi).isSome := by
        rw [Bool.eq_iff_iff, ← mem_allocated_iff, ← mem_allocated_iff, h.sim.allocated]
      rw [← e1, ← e2]
      cases hb : st.bundle bi with
      | none =>
        cases hb' : st'.bundle bi with
        | none => trivial
        | some b' => rw [hb, hb'] at hs; cases hs
      | some b =>
        cases hb' : st'.bundle bi with
        | none => rw [hb, hb'] at hs; cases hs
        | some b' => exact ⟨rfl, rfl⟩
    · rw [if_neg hok, if_neg hok]; trivial
  · rw [if_neg hv, if_neg hv]; trivial

/-- contents seen through a bundle -/
theorem heap_bin (L : B.Lawful) (st : St B D) (hI : Inv L st) (bi : Idx d) (b : Bundle) (hb : st.bundle bi = some b) (c : Nat) (hc : c < 2 ^ d) :
    ∃ a, b.data c = some a ∧ st.heap a = st.abs.val c (generateIndex bi c) := by
  obtain ⟨a, h1, h2⟩ := hI.complete bi b hb c hc
  refine ⟨a, h1, ?_⟩
  unfold Abs.val
  show _ = (st.content c (generateIndex bi c)).getD default
  unfold St.content; rw [h2]; rfl

theorem Like.coreStep {L : B.Lawful} {dyn : Bool} {st st' : St B D} (h : Like L dyn st st') (exp : D → Bool) (op : CoreOp d) :
    BothOr (Like L dyn) (St.coreStep dyn exp op st) (St.coreStep dyn exp op st') := by
  cases op with
  | bundleAt bi =>
    simp only [St.coreStep, getDistributionBundle]
    rw [h.validEq]
    by_cases hv : st.valid dyn bi = true
    · rw [if_pos hv, if_pos hv]
      have := h.getAllocate bi hv
      cases e : St.getAllocate dyn bi st with
      | none =>
        rw [e] at this
        cases e' : St.getAllocate dyn bi st' with
        | none => trivial
        | some p => rw [e'] at this; exact this.elim
      | some p =>
        rw [e] at this
        cases e' : St.getAllocate dyn bi st' with
        | none => rw [e'] at this; exact this.elim
        | some p' => rw [e'] at this; exact this
    · rw [if_neg hv, if_neg hv]; exact h
  | get bi =>
    simp only [St.coreStep]
    have := h.getBundle bi
    cases e : St.getBundle dyn bi st with
    | none =>
      rw [this.of_none e]; trivial
    | some p =>
      obtain ⟨p', e', _⟩ := this.of_some e
      rw [e']; exact h
  | expandOne bi =>
    simp only [St.coreStep]
    have := h.getBundle bi
    cases e : St.getBundle dyn bi st with
    | none => rw [this.of_none e]; trivial
    | some p =>
      obtain ⟨p', e', r⟩ := this.of_some e
      rw [e']
      cases p with
      | none => rw [r.of_none rfl]; exact h
      | some b =>
        obtain ⟨b', rfl, hb, hb'⟩ := r.of_some rfl
        simp only
        have hm : ∀ b ∈ [bi], b ∈ st.abs.allocated := by
          intro x hx; rw [List.mem_singleton] at hx; subst hx; rw [mem_allocated_iff, hb]; rfl
        have := h.allocPartialList exp [bi] [bi] hm (by simp) (by simp) (fun _ => Iff.rfl)
        have q : ∀ s : St B D, St.allocPartialList dyn exp [bi] s = St.allocPartial dyn exp bi s := by
          intro s; simp only [St.allocPartialList]; cases St.allocPartial dyn exp bi s <;> rfl
        rw [q, q] at this; exact this
  | expandAll =>
    have hm : ∀ (s : St B D), RInv L dyn s → ∀ b, b ∈ s.bundleIndices ↔ b ∈ s.abs.allocated := by
      intro s hI b; rw [mem_allocated_iff]; exact mem_bundleIndices L s hI.inv b
    exact h.allocPartialList exp _ _ (fun b hb => (hm st h.inv b).1 hb) (nodup_bundleIndices L st h.inv.inv) (nodup_bundleIndices L st' h.inv'.inv)
      (fun bi => by
        have a1 := hm st h.inv bi
        have a2 := hm st' h.inv' bi
        rw [h.sim.allocated] at a2
        exact a2.trans a1.symm)

/-- the visible state is the same -/
theorem Alike.restored {L : B.Lawful} {dyn : Bool} {st st' : St B D} (h : Alike L dyn st st') : Spec.Restored st st' where
  bundles := by
    intro bi
    rw [mem_bundleIndices L st h.inv.inv, mem_bundleIndices L st' h.inv'.inv, ← mem_allocated_iff, ← mem_allocated_iff, h.sim.allocated]
  contents := fun c k => congrFun (congrFun h.sim.content c) k
  binContents := by
    intro bi c hc
    have hs : (st'.bundle bi).isSome = (st.bundle bi).isSome := by
      rw [Bool.eq_iff_iff, ← mem_allocated_iff, ← mem_allocated_iff, h.sim.allocated]
    unfold binContent
    cases hb : st.bundle bi with
    | none =>
      cases hb' : st'.bundle bi with
      | none => rfl
      | some b' => rw [hb, hb'] at hs; cases hs
    | some b =>
      cases hb' : st'.bundle bi with
      | none => rw [hb, hb'] at hs; cases hs
      | some b' =>
        obtain ⟨a, h1, h2⟩ := heap_bin L st h.inv.inv bi b hb c hc
        obtain ⟨a', h1', h2'⟩ := heap_bin L st' h.inv'.inv bi b' hb' c hc
        simp only [Option.bind_some, h1, h1', Option.map_some, h2, h2', h.sim.val]
  minB := h.sim.minB
  maxB := h.sim.maxB

theorem good_of_ok {st st' : St B D} (hB : ∀ i, B.ok st'.bundles i = B.ok st.bundles i) (hD : ∀ c i, B.ok (st'.storage c) i = B.ok (st.storage c) i) (bi : Idx d) :
    st'.abs.Good bi ↔ st.abs.Good bi := by
  unfold Abs.Good
  rw [show st'.abs.okB = st.abs.okB from funext hB, show st'.abs.okD = st.abs.okD from funext fun c => funext fun i => hD c i]

theorem alike_of_restored {L : B.Lawful} {dyn : Bool} {st st' : St B D} (hI : RInv L dyn st) (hI' : RInv L dyn st') (h : Spec.Restored st st')
    (hB : ∀ i, B.ok st'.bundles i = B.ok st.bundles i) : Alike L dyn st st' where
  inv := hI
  inv' := hI'
  sim := by
    refine ⟨funext fun c => funext fun k => h.contents c k, ?_, h.minB, h.maxB, funext hB⟩
    ext bi
    rw [mem_allocated_iff, mem_allocated_iff, ← mem_bundleIndices L st hI.inv, ← mem_bundleIndices L st' hI'.inv]
    exact h.bundles bi

theorem like_of_restored {L : B.Lawful} {dyn : Bool} {st st' : St B D} (hI : RInv L dyn st) (hI' : RInv L dyn st') (h : Spec.Restored st st')
    (hB : ∀ i, B.ok st'.bundles i = B.ok st.bundles i) (hD : ∀ bi, st.valid dyn bi = true → (st'.abs.Good bi ↔ st.abs.Good bi)) : Like L dyn st st' where
  toAlike := alike_of_restored hI hI' h hB
  good := hD

/-- all samples are equal -/
theorem Alike.sampleWith {K : Type} [Field K] {L : B.Lawful} {dyn : Bool} {st st' : St B D} (h : Alike L dyn st st') (w : Nat → K) (f : D → K) (bi : Idx d) :
    St.sampleWith dyn w f bi st' = St.sampleWith dyn w f bi st := by
  have := h.getBundle bi
  unfold St.getBundle at this
  unfold St.sampleWith
  rw [h.validEq] at this ⊢
  by_cases hv : st.valid dyn bi = true
  · rw [if_pos hv, if_pos hv] at this
    rw [if_pos hv, if_pos hv]
    rw [show B.ok st'.bundles bi = B.ok st.bundles bi from congrFun h.sim.okB bi] at this ⊢
    by_cases hok : B.ok st.bundles bi = true
    · rw [if_pos hok, if_pos hok] at this
      rw [if_pos hok, if_pos hok]
      replace this : BothOr _ (B.get st.bundles bi) (B.get st'.bundles bi) := this
      cases e : B.get st.bundles bi with
      | none => rw [e] at this; rw [this.of_none rfl]
      | some b =>
        rw [e] at this
        obtain ⟨b', e', hb, hb'⟩ := this.of_some rfl
        rw [e']
        simp only
        congr 1
        unfold evaluate
        refine List.foldl_ext _ _ _ ?_
        intro x c hc
        rw [twoPow_eq, List.mem_range] at hc
        obtain ⟨a, h1, h2⟩ := heap_bin L st h.inv.inv bi b hb c hc
        obtain ⟨a', h1', h2'⟩ := heap_bin L st' h.inv'.inv bi b' hb' c hc
        rw [h1, h1']
        simp only
        rw [h2, h2', h.sim.val]
    · rw [if_neg hok, if_neg hok]
  · rw [if_neg hv, if_neg hv]

end St

section
variable {K : Type} [Field K] [LinearOrder K] [FloorRing K] {d : Nat} {B : Backend d}
open St

/-- `insert` of the NDT map -/
theorem St.Like.gridStep {L : B.Lawful} {dyn : Bool} {st st' : St B (Multiset (Pt K d))} (h : Like L dyn st st') (g : Geo K d) (exp : Multiset (Pt K d) → Bool) (op : GridOp K d) :
    BothOr (Like L dyn) (Ndt.gridStep g dyn exp op st) (Ndt.gridStep g dyn exp op st') := by
  cases op with
  | insert pose cloud =>
    simp only [Ndt.gridStep, gridInsert]
    rw [h.validEq]
    refine h.updateList _ ?_
    intro e he
    obtain ⟨y, hy, rfl⟩ := List.mem_map.1 he
    obtain ⟨p, hp, hx⟩ := (mem_collect_keys g (st.valid dyn) pose cloud y.1).1 (List.mem_map.2 ⟨y, hy, rfl⟩)
    have hq := (List.mem_filter.1 hp).2
    rw [← hx]; exact hq
  | core op => exact h.coreStep exp op

theorem St.Like.gridRun {L : B.Lawful} {dyn : Bool} (g : Geo K d) (exp : Multiset (Pt K d) → Bool) : ∀ (ops : List (GridOp K d)) {st st' : St B (Multiset (Pt K d))},
    Like L dyn st st' → BothOr (Like L dyn) (Ndt.gridRun g dyn exp ops st) (Ndt.gridRun g dyn exp ops st')
  | [], _, _, h => h
  | op :: ops, _, _, h => (h.gridStep g exp op).bind fun _ _ h' => h'.gridRun g exp ops

section vis
variable {D : Type} [Inhabited D] {L : B.Lawful} {dyn : Bool}

omit [FloorRing K] [LinearOrder K] in
theorem St.Alike.sumOccupancy {st st' : St B D} (h : Alike L dyn st st') (occ : D → K) (bi : Idx d) (b b' : Bundle) (hb : st.bundle bi = some b) (hb' : st'.bundle bi = some b') :
    ∀ (l : List Nat) (x : K), (∀ c ∈ l, c < 2 ^ d) → Ndt.sumOccupancy occ b' st' l x = Ndt.sumOccupancy occ b st l x
  | [], _, _ => rfl
  | c :: l, x, hl => by
    obtain ⟨a, h1, h2⟩ := heap_bin L st h.inv.inv bi b hb c (hl c (List.mem_cons_self ..))
    obtain ⟨a', h1', h2'⟩ := heap_bin L st' h.inv'.inv bi b' hb' c (hl c (List.mem_cons_self ..))
    unfold Ndt.sumOccupancy
    rw [h1, h1']
    simp only
    rw [h2, h2', h.sim.val]
    exact h.sumOccupancy occ bi b b' hb hb' l _ fun c' hc' => hl c' (List.mem_cons_of_mem _ hc')

omit [FloorRing K] [LinearOrder K] in
theorem St.Alike.bundleOccupancy {st st' : St B D} (h : Alike L dyn st st') (occ : D → K) (bi : Idx d) : Ndt.bundleOccupancy dyn occ bi st' = Ndt.bundleOccupancy dyn occ bi st := by
  have := h.getBundle bi
  unfold Ndt.bundleOccupancy
  cases e : St.getBundle dyn bi st with
  | none => rw [this.of_none e]
  | some p =>
    obtain ⟨p', e', r⟩ := this.of_some e
    rw [e']
    cases p with
    | none => rw [r.of_none rfl]
    | some b =>
      obtain ⟨b', rfl, hb, hb'⟩ := r.of_some rfl
      exact h.sumOccupancy occ bi b b' hb hb' _ _ fun c hc => by rw [twoPow_eq, List.mem_range] at hc; exact hc

omit [FloorRing K] in
theorem St.Alike.occlusionProb {st st' : St B D} (h : Alike L dyn st st') (occ : D → K) (startBi bi : Idx d) : ∀ (l : List (Fin d)) (x : K),
    Ndt.occlusionProb dyn occ startBi bi st' l x = Ndt.occlusionProb dyn occ startBi bi st l x
  | [], _ => rfl
  | c :: l, x => by
    unfold Ndt.occlusionProb
    rw [h.validEq, h.bundleOccupancy]
    simp only [h.occlusionProb occ startBi bi l]

omit [FloorRing K] in
theorem St.Alike.currentVisibility {st st' : St B D} (h : Alike L dyn st st') (occ : D → K) (vm : VisModel K) (startBi bi : Idx d) :
    Ndt.currentVisibility dyn occ vm startBi bi st' = Ndt.currentVisibility dyn occ vm startBi bi st := by
  unfold Ndt.currentVisibility; rw [h.occlusionProb]

omit [FloorRing K] in
theorem St.Alike.visRay {W : Type} [AddCommMonoid W] {st st' : St B D} (h : Alike L dyn st st') (occ : D → K) (vm : VisModel K) (startBi : Idx d) (n : W) : ∀ (l : List (Idx d)) (v : K) (free : List (Idx d × W)),
    Ndt.visRay dyn occ vm startBi n st' l v free = Ndt.visRay dyn occ vm startBi n st l v free
  | [], _, _ => rfl
  | bi :: l, v, free => by
    unfold Ndt.visRay
    rw [h.validEq, h.currentVisibility]
    simp only [h.visRay occ vm startBi n l]

end vis

variable {W E : Type} [AddCommMonoid W] {L : B.Lawful} {dyn : Bool}

omit [LinearOrder K] [FloorRing K] [Field K] in
theorem St.Like.occHits (fl : Flavour K d W E) (ray : Pt K d → Pt K d → List (Idx d)) (start : Pt K d) (ok : Idx d → Bool) :
    ∀ (l : List (Idx d × Multiset E)) (free : List (Idx d × W)) {st st' : St B (Occ W E)}, Like L dyn st st' → st.valid dyn = ok → (∀ e ∈ l, ok e.1 = true) → (∀ x ∈ free.map Prod.fst, ok x = true) →
    BothOr (fun r r' => r'.1 = r.1 ∧ Like L dyn r.2 r'.2 ∧ r.2.valid dyn = ok ∧ ∀ x ∈ r.1.map Prod.fst, ok x = true)
      (Ndt.occHits fl dyn ray start l free st) (Ndt.occHits fl dyn ray start l free st')
  | [], _, _, _, h, hok, _, hf => ⟨rfl, h, hok, hf⟩
  | e :: l, free, st, st', h, hok, hl, hf => by
    have hv : st.valid dyn e.1 = true := by rw [hok]; exact hl e (List.mem_cons_self ..)
    unfold Ndt.occHits
    rw [h.validEq, hv]
    simp only [Bool.not_true, Bool.and_false, Bool.false_eq_true, if_false]
    have hu := h.update e.1 hv (fun o => o.updateOccupied e.2)
    cases e1 : St.update dyn e.1 (fun o => o.updateOccupied e.2) st with
    | none => rw [hu.of_none e1]; trivial
    | some s1 =>
      obtain ⟨s1', e1', h1⟩ := hu.of_some e1
      rw [e1']
      simp only
      rw [h1.validEq]
      have hv1 : s1.valid dyn = ok := (valid_update L h.inv e1).trans hok
      refine St.Like.occHits fl ray start ok l _ h1 hv1 (fun x hx => hl x (List.mem_cons_of_mem _ hx)) ?_
      rw [hv1]
      exact mem_addRay ok _ _ free hf

omit [Field K] [LinearOrder K] [FloorRing K] in
theorem occFree_keys (s : Scan K d W) (updates : List (Idx d × Multiset E)) (free : List (Idx d × W)) (b : Bool) (ok : Idx d → Bool) (h : ∀ x ∈ free.map Prod.fst, ok x = true) :
    ∀ e ∈ (s.order (if b then eraseKeys updates free else free)).map (fun f => (f.1, fun o : Occ W E => o.updateFree f.2)), ok e.1 = true := by
  intro e he
  obtain ⟨y, hy, rfl⟩ := List.mem_map.1 he
  have hy' := (s.order_perm _).mem_iff.1 hy
  refine h y.1 (List.mem_map.2 ⟨y, ?_, rfl⟩)
  cases b with
  | true => exact (List.mem_filter.1 hy').1
  | false => exact hy'

theorem St.Like.occInsert {st st' : St B (Occ W E)} (h : Like L dyn st st') (fl : Flavour K d W E) (g : Geo K d) (s : Scan K d W) :
    BothOr (Like L dyn) (Ndt.occInsert fl g dyn s st) (Ndt.occInsert fl g dyn s st') := by
  unfold Ndt.occInsert
  simp only
  rw [h.validEq]
  have r := St.Like.occHits fl s.ray (rayStart g s.pose) (st.valid dyn) (occCollect fl g (st.valid dyn) s.pose s.cloud) [] h rfl (occCollect_valid fl g (st.valid dyn) s.pose s.cloud) (by simp)
  cases e : Ndt.occHits fl dyn s.ray (rayStart g s.pose) (occCollect fl g (st.valid dyn) s.pose s.cloud) [] st with
  | none => rw [r.of_none e]; trivial
  | some p =>
    obtain ⟨p', e', h1, h2, h3, h4⟩ := r.of_some e
    rw [e']
    obtain ⟨f, s1⟩ := p
    obtain ⟨f', s1'⟩ := p'
    simp only at h1 h2 h3 h4
    subst h1
    refine h2.updateList _ ?_
    rw [h3]
    exact occFree_keys s _ f' fl.eraseHits _ h4

omit [FloorRing K] in
theorem visRay_keys {D : Type} (occ : D → K) (vm : VisModel K) (startBi : Idx d) (n : W) (st : St B D) (ok : Idx d → Bool) (hok : st.valid dyn = ok) :
    ∀ (l : List (Idx d)) (v : K) (free : List (Idx d × W)) (v' : K) (free' : List (Idx d × W)), (∀ x ∈ free.map Prod.fst, ok x = true) →
    Ndt.visRay dyn occ vm startBi n st l v free = some (some (v', free')) → ∀ x ∈ free'.map Prod.fst, ok x = true
  | [], _, _, _, _, hf, h => by
    simp only [Ndt.visRay, Option.some.injEq, Prod.mk.injEq] at h
    rw [← h.2]; exact hf
  | bi :: l, v, free, v', free', hf, h => by
    unfold Ndt.visRay at h
    cases e : Ndt.currentVisibility dyn occ vm startBi bi st with
    | none => rw [e] at h; cases h
    | some cv =>
      rw [e] at h
      simp only at h
      split at h
      · cases h
      · refine visRay_keys occ vm startBi n st ok hok l _ _ v' free' ?_ h
        rw [hok]
        exact mem_addRay ok n [bi] free hf

theorem St.Like.visHits (fl : Flavour K d W E) (ray : Pt K d → Pt K d → List (Idx d)) (occ : Occ W E → K) (vm : VisModel K) (start : Pt K d) (startBi : Idx d) (ok : Idx d → Bool) :
    ∀ (l : List (Idx d × Multiset E)) (free : List (Idx d × W)) {st st' : St B (Occ W E)}, Like L dyn st st' → st.valid dyn = ok → (∀ e ∈ l, ok e.1 = true) → (∀ x ∈ free.map Prod.fst, ok x = true) →
    BothOr (fun r r' => r'.1 = r.1 ∧ Like L dyn r.2 r'.2 ∧ r.2.valid dyn = ok ∧ ∀ f, r.1 = some f → ∀ x ∈ f.map Prod.fst, ok x = true)
      (Ndt.visHits fl dyn ray occ vm start startBi l free st) (Ndt.visHits fl dyn ray occ vm start startBi l free st')
  | [], _, _, _, h, hok, _, hf => ⟨rfl, h, hok, fun f e => by cases e; exact hf⟩
  | e :: l, free, st, st', h, hok, hl, hf => by
    have hl' : ∀ x ∈ l, ok x.1 = true := fun x hx => hl x (List.mem_cons_of_mem _ hx)
    unfold Ndt.visHits
    rw [h.visRay, h.currentVisibility]
    cases e1 : Ndt.visRay dyn occ vm startBi (fl.amount e.2) st (ray start (fl.mean e.2)) 1 free with
    | none => trivial
    | some x =>
      cases x with
      | none => exact ⟨rfl, h, hok, fun f e => by cases e⟩
      | some y =>
        obtain ⟨v, free'⟩ := y
        have hf' := visRay_keys occ vm startBi _ st ok hok _ _ _ _ _ hf e1
        simp only
        cases e2 : Ndt.currentVisibility dyn occ vm startBi e.1 st with
        | none => trivial
        | some cv =>
          simp only
          split
          · have hu := h.update e.1 (by rw [hok]; exact hl e (List.mem_cons_self ..)) (fun o => o.updateOccupied e.2)
            cases e3 : St.update dyn e.1 (fun o => o.updateOccupied e.2) st with
            | none => rw [hu.of_none e3]; trivial
            | some s1 =>
              obtain ⟨s1', e3', h1⟩ := hu.of_some e3
              rw [e3']
              exact St.Like.visHits fl ray occ vm start startBi ok l _ h1 ((valid_update L h.inv e3).trans hok) hl' hf'
          · exact St.Like.visHits fl ray occ vm start startBi ok l _ h hok hl' hf'

theorem St.Like.occStep {st st' : St B (Occ W E)} (h : Like L dyn st st') (fl : Flavour K d W E) (g : Geo K d) (defRay : Pt K d → Pt K d → List (Idx d)) (exp : Occ W E → Bool) (op : OccMapOp K d W E) :
    BothOr (Like L dyn) (Ndt.occStep fl g dyn defRay exp op st) (Ndt.occStep fl g dyn defRay exp op st') := by
  cases op with
  | insert s => exact h.occInsert fl g s
  | core op => exact h.coreStep exp op
  | insertVisible s occ vm =>
    cases occ with
    | none => exact h.occInsert fl g _
    | some occ =>
      cases vm with
      | none => exact h.occInsert fl g _
      | some vm =>
        simp only [Ndt.occStep, occInsertVisible]
        rw [h.validEq]
        have r := St.Like.visHits (L := L) (dyn := dyn) fl s.ray occ vm (rayStart g s.pose) (toBundleIndex g.r (rayStart g s.pose)) (st.valid dyn) (occCollect fl g (st.valid dyn) s.pose s.cloud) [] h rfl
          (occCollect_valid fl g (st.valid dyn) s.pose s.cloud) (by simp)
        cases e : Ndt.visHits fl dyn s.ray occ vm (rayStart g s.pose) (toBundleIndex g.r (rayStart g s.pose)) (occCollect fl g (st.valid dyn) s.pose s.cloud) [] st with
        | none => rw [r.of_none e]; trivial
        | some p =>
          obtain ⟨p', e', h1, h2, h3, h4⟩ := r.of_some e
          rw [e']
          obtain ⟨f, s1⟩ := p
          obtain ⟨f', s1'⟩ := p'
          simp only at h1 h2 h3 h4
          subst h1
          cases f' with
          | none => exact h2
          | some f =>
            refine h2.updateList _ ?_
            rw [h3]
            exact occFree_keys s _ f true _ (h4 f rfl)

theorem St.Like.occRun (fl : Flavour K d W E) (g : Geo K d) (defRay : Pt K d → Pt K d → List (Idx d)) (exp : Occ W E → Bool) : ∀ (ops : List (OccMapOp K d W E)) {st st' : St B (Occ W E)},
    Like L dyn st st' → BothOr (Like L dyn) (Ndt.occRun fl g dyn defRay exp ops st) (Ndt.occRun fl g dyn defRay exp ops st')
  | [], _, _, h => h
  | op :: ops, _, _, h => (h.occStep fl g defRay exp op).bind fun _ _ h' => h'.occRun fl g defRay exp ops

end
end Ndt
