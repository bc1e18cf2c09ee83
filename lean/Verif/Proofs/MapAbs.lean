import Verif.Proofs.Map
import Verif.Model.Gridmap
import Verif.Spec.MapSpec
import Mathlib.Tactic.Linarith

namespace Ndt

namespace St
variable {d : Nat} {B : Backend d} {D : Type} [Inhabited D]

/-! ### success implies that the storages cover the index -/

theorem getAllocateDist_ok (c : Nat) (k : Idx d) (st : St B D) (r : Nat × St B D) (h : getAllocateDist c k st = some r) :
    B.ok (st.storage c) k = true := by
  unfold getAllocateDist at h
  split at h
  · assumption
  · cases h

theorem allocBins_ok (L : B.Lawful) : ∀ (l : List (Nat × Idx d)) (b : Bundle) (st : St B D), Inv0 L st →
    (l.map Prod.fst).Nodup → (∀ e ∈ l, b.data e.1 = none) → ∀ r, allocBins l b st = some r →
    ∀ e ∈ l, B.ok (st.storage e.1) e.2 = true
  | [], _, _, _, _, _, _, _, e, he => absurd he List.not_mem_nil
  | (c, k) :: l, b, st, hI, hnd, hb, r, h, e, he => by
    have hbc : b.data c = none := hb (c, k) (List.mem_cons_self ..)
    simp only [allocBins, hbc] at h
    cases hg : getAllocateDist c k st with
    | none => simp only [hg] at h; cases h
    | some p =>
      obtain ⟨a, st1⟩ := p
      simp only [hg] at h
      have hok := getAllocateDist_ok c k st _ hg
      obtain ⟨a', st1', h1, hI1, hE1, hd1⟩ := getAllocateDist_spec L st hI c k hok
      rw [hg] at h1; cases h1
      rcases List.mem_cons.1 he with rfl | he
      · exact hok
      · rw [List.map_cons, List.nodup_cons] at hnd
        have hne : ∀ e ∈ l, e.1 ≠ c := fun e he hec => hnd.1 (List.mem_map.2 ⟨e, he, hec⟩)
        have := allocBins_ok L l { b with data := Function.update b.data c (some a) } st1 hI1 hnd.2
          (fun e he => by simp only [Function.update_of_ne (hne e he)]; exact hb e (List.mem_cons_of_mem _ he)) r h e he
        rw [hE1.ok] at this; exact this

theorem good_of_getAllocate (L : B.Lawful) (dyn : Bool) (bi : Idx d) (st : St B D) (hI : Inv L st) (r : Bundle × St B D)
    (h : getAllocate dyn bi st = some r) : st.abs.Good bi := by
  unfold getAllocate at h
  split at h
  · rename_i hok
    refine ⟨hok, ?_⟩
    have hl := look_of_ok B st.bundles bi hok
    cases hg : B.get st.bundles bi with
    | some b =>
      have hbi : st.bundle bi = some b := by unfold bundle; rw [hl, hg]
      intro c hc
      obtain ⟨a, _, ha⟩ := hI.complete bi b hbi c hc
      unfold dist Backend.look at ha
      split at ha
      · assumption
      · cases ha
    | none =>
      simp only [hg] at h
      rw [applyIndices_list] at h
      cases hb : allocBins ((List.range (2 ^ d)).map (fun c => (c, generateIndex bi c))) Bundle.new
        { st with bundles := B.insert st.bundles bi Bundle.new } with
      | none => simp only [hb] at h; cases h
      | some p =>
        intro c hc
        have := allocBins_ok L ((List.range (2 ^ d)).map (fun c => (c, generateIndex bi c))) Bundle.new
          { st with bundles := B.insert st.bundles bi Bundle.new } ⟨hI.store, hI.fresh, hI.inj⟩
          (by rw [List.map_map]; simp [Function.comp_def, List.nodup_range])
          (fun _ _ => rfl) p hb (c, generateIndex bi c) (List.mem_map.2 ⟨c, List.mem_range.2 hc, rfl⟩)
        exact this
  · cases h

theorem good_of_update (L : B.Lawful) (dyn : Bool) (bi : Idx d) (f : D → D) (st : St B D) (hI : Inv L st) (r : St B D)
    (h : update dyn bi f st = some r) : st.abs.Good bi := by
  unfold update at h
  cases hg : getAllocate dyn bi st with
  | none => simp only [hg] at h; cases h
  | some p => exact good_of_getAllocate L dyn bi st hI p hg

/-- A refinement statement that covers both outcomes: `m` is `none` iff some access is not covered, and otherwise refines `A'`. -/
def Refines (L : B.Lawful) (m : Option (St B D)) (good : Prop) (A' : Abs d D) : Prop :=
  (good → ∃ st', m = some st' ∧ Inv L st' ∧ st'.abs = A') ∧ (∀ st', m = some st' → good)

theorem Refines.of_some {L : B.Lawful} {m : Option (St B D)} {good : Prop} {A' : Abs d D} (h : Refines L m good A') {st' : St B D}
    (hm : m = some st') : good ∧ Inv L st' ∧ st'.abs = A' := by
  have hg := h.2 st' hm
  obtain ⟨s, hs, h1, h2⟩ := h.1 hg
  rw [hm] at hs; cases hs
  exact ⟨hg, h1, h2⟩

theorem update_refines (L : B.Lawful) (dyn : Bool) (bi : Idx d) (f : D → D) (st : St B D) (hI : Inv L st) :
    Refines L (update dyn bi f st) (st.abs.Good bi) (st.abs.upd dyn bi f) := by
  refine ⟨?_, fun r h => good_of_update L dyn bi f st hI r h⟩
  intro hG
  obtain ⟨st', h1, h2, h3, _⟩ := update_spec L dyn bi f st hI hG
  exact ⟨st', h1, h2, h3⟩

theorem getAllocate_refines (L : B.Lawful) (dyn : Bool) (bi : Idx d) (st : St B D) (hI : Inv L st) :
    Refines L ((getAllocate dyn bi st).map Prod.snd) (st.abs.Good bi) (st.abs.alloc dyn bi) := by
  refine ⟨?_, ?_⟩
  · intro hG
    obtain ⟨b, st', h1, h2, h3, _⟩ := getAllocate_spec L dyn bi st hI hG
    exact ⟨st', by rw [h1]; rfl, h2, h3⟩
  · intro r h
    obtain ⟨p, hp, _⟩ := Option.map_eq_some_iff.1 h
    exact good_of_getAllocate L dyn bi st hI p hp

end St

/-! ### abstract operations -/
namespace Abs
variable {d : Nat} {D : Type} [Inhabited D]

/-- content, default if the distribution does not exist -/
def val (A : Abs d D) (c : Nat) (k : Idx d) : D := (A.content c k).getD default

def valid (dyn : Bool) (A : Abs d D) (i : Idx d) : Bool := dyn || decide (∀ a, A.minB a ≤ i a ∧ i a < A.maxB a)

/-- allocated bundles -/
def allocated (A : Abs d D) : Set (Idx d) := {bi | (A.flags bi).isSome}

theorem mem_allocated (A : Abs d D) (bi : Idx d) : bi ∈ A.allocated ↔ (A.flags bi).isSome = true := Iff.rfl

theorem allocated_alloc (dyn : Bool) (bi : Idx d) (A : Abs d D) : (A.alloc dyn bi).allocated = insert bi A.allocated := by
  ext bj
  rw [mem_allocated, Set.mem_insert_iff, mem_allocated]
  unfold alloc
  split
  · rename_i h
    constructor
    · intro x; exact Or.inr x
    · rintro (rfl | x)
      · exact h
      · exact x
  · by_cases e : bj = bi
    · subst e; simp
    · simp [e]

theorem allocated_upd (dyn : Bool) (bi : Idx d) (f : D → D) (A : Abs d D) : (A.upd dyn bi f).allocated = insert bi A.allocated :=
  allocated_alloc dyn bi A

theorem allocated_setExpanded (bi : Idx d) (A : Abs d D) : (A.setExpanded bi).allocated = A.allocated := by
  ext bj
  rw [mem_allocated, mem_allocated]
  unfold setExpanded
  by_cases e : bj = bi
  · subst e; simp
  · simp [e]

theorem val_alloc (dyn : Bool) (bi : Idx d) (A : Abs d D) (c : Nat) (k : Idx d) : (A.alloc dyn bi).val c k = A.val c k := by
  unfold val alloc
  split
  · rfl
  · simp only
    split <;> rfl

/-- invariant of the abstract state -/
structure AInv (dyn : Bool) (A : Abs d D) : Prop where
  used : ∀ c k, (A.content c k).isSome = true ↔ c < 2 ^ d ∧ ∃ bi ∈ A.allocated, generateIndex bi c = k
  bounds : dyn = true → Spec.TightBounds A.allocated A.minB A.maxB
  range : dyn = true → ∀ bi ∈ A.allocated, ∀ a, -2147483648 ≤ bi a ∧ bi a ≤ 2147483647

theorem val_upd (dyn : Bool) (bi : Idx d) (f : D → D) (A : Abs d D) (hA : AInv dyn A) (c : Nat) (k : Idx d) :
    (A.upd dyn bi f).val c k = if c < 2 ^ d ∧ generateIndex bi c = k then f (A.val c k) else A.val c k := by
  have h1 : (A.upd dyn bi f).val c k =
    ((if c < 2 ^ d ∧ generateIndex bi c = k then ((A.alloc dyn bi).content c k).map f else (A.alloc dyn bi).content c k)).getD default := rfl
  rw [h1, ← val_alloc dyn bi A c k]
  split
  · rename_i hc
    have : ((A.alloc dyn bi).content c k).isSome = true := by
      unfold alloc
      split
      · rename_i h
        exact (hA.used c k).2 ⟨hc.1, bi, h, hc.2⟩
      · simp [hc]
    obtain ⟨x, hx⟩ := Option.isSome_iff_exists.1 this
    unfold val; rw [hx]; rfl
  · rfl

theorem AInv.content_eq {dyn : Bool} {A : Abs d D} (hA : AInv dyn A) (c : Nat) (k : Idx d) :
    (A.content c k = some (A.val c k) ∧ c < 2 ^ d ∧ ∃ bi ∈ A.allocated, generateIndex bi c = k) ∨
    (A.content c k = none ∧ ¬ (c < 2 ^ d ∧ ∃ bi ∈ A.allocated, generateIndex bi c = k)) := by
  cases h : A.content c k with
  | some x => left; exact ⟨by unfold val; rw [h]; rfl, (hA.used c k).1 (by rw [h]; rfl)⟩
  | none => right; exact ⟨rfl, fun hc => by have := (hA.used c k).2 hc; rw [h] at this; cases this⟩

theorem tight_insert {S : Set (Idx d)} {lo hi : Idx d} (h : Spec.TightBounds S lo hi) (bi : Idx d)
    (hb : ∀ a, -2147483648 ≤ bi a ∧ bi a ≤ 2147483647) :
    Spec.TightBounds (insert bi S) (fun a => min (lo a) (bi a)) (fun a => max (hi a) (bi a)) := by
  right
  refine ⟨⟨bi, Set.mem_insert _ _⟩, ?_⟩
  intro a
  rcases h with ⟨rfl, h⟩ | ⟨_, h⟩
  · obtain ⟨h1, h2⟩ := h a
    obtain ⟨b1, b2⟩ := hb a
    simp only [h1, h2]
    rw [min_eq_right (by omega), max_eq_right (by omega)]
    refine ⟨⟨⟨bi, Set.mem_insert _ _, rfl⟩, ?_⟩, ⟨bi, Set.mem_insert _ _, rfl⟩, ?_⟩
    · rintro x ⟨i, hi, rfl⟩
      rcases hi with rfl | hi
      · exact le_refl _
      · exact absurd hi (Set.notMem_empty _)
    · rintro x ⟨i, hi, rfl⟩
      rcases hi with rfl | hi
      · exact le_refl _
      · exact absurd hi (Set.notMem_empty _)
  · obtain ⟨⟨⟨i, him, hi'⟩, h2⟩, ⟨j, hj, hj'⟩, h4⟩ := h a
    refine ⟨⟨?_, ?_⟩, ?_, ?_⟩ <;> beta_reduce
    · rcases le_total (lo a) (bi a) with hle | hle
      · rw [min_eq_left hle]; exact ⟨i, Set.mem_insert_of_mem _ him, hi'⟩
      · rw [min_eq_right hle]; exact ⟨bi, Set.mem_insert _ _, rfl⟩
    · rintro x ⟨m, hm, rfl⟩
      rcases hm with rfl | hm
      · exact min_le_right _ _
      · exact le_trans (min_le_left _ _) (h2 ⟨m, hm, rfl⟩)
    · rcases le_total (hi a) (bi a) with hle | hle
      · rw [max_eq_right hle]; exact ⟨bi, Set.mem_insert _ _, rfl⟩
      · rw [max_eq_left hle]; exact ⟨j, Set.mem_insert_of_mem _ hj, hj'⟩
    · rintro x ⟨m, hm, rfl⟩
      rcases hm with rfl | hm
      · exact le_max_right _ _
      · exact le_trans (h4 ⟨m, hm, rfl⟩) (le_max_left _ _)

theorem tight_insert_of_mem {S : Set (Idx d)} {lo hi : Idx d} (h : Spec.TightBounds S lo hi) (bi : Idx d) (hb : bi ∈ S) :
    Spec.TightBounds (insert bi S) lo hi := by rw [Set.insert_eq_of_mem hb]; exact h

theorem AInv.alloc {dyn : Bool} {A : Abs d D} (hA : AInv dyn A) (bi : Idx d)
    (hb : dyn = true → ∀ a, -2147483648 ≤ bi a ∧ bi a ≤ 2147483647) : AInv dyn (A.alloc dyn bi) where
  used := by
    intro c k
    rw [allocated_alloc]
    unfold Abs.alloc
    split
    · rename_i h
      have : bi ∈ A.allocated := h
      rw [Set.insert_eq_of_mem this]; exact hA.used c k
    · simp only
      split
      · rename_i hc
        simp only [Option.isSome_some, true_iff]
        exact ⟨hc.1, bi, Set.mem_insert _ _, hc.2⟩
      · rename_i hc
        rw [hA.used]
        constructor
        · rintro ⟨h1, bj, h2, h3⟩; exact ⟨h1, bj, Set.mem_insert_of_mem _ h2, h3⟩
        · rintro ⟨h1, bj, h2, h3⟩
          rcases h2 with rfl | h2
          · exact absurd ⟨h1, h3⟩ hc
          · exact ⟨h1, bj, h2, h3⟩
  bounds := by
    intro hd
    rw [allocated_alloc]
    subst hd
    unfold Abs.alloc
    split
    · rename_i h; exact tight_insert_of_mem (hA.bounds rfl) bi h
    · simpa using tight_insert (hA.bounds rfl) bi (hb rfl)
  range := by
    intro hd bj hbj
    rw [allocated_alloc] at hbj
    rcases hbj with rfl | h
    · exact hb hd
    · exact hA.range hd bj h

theorem AInv.upd {dyn : Bool} {A : Abs d D} (hA : AInv dyn A) (bi : Idx d) (f : D → D)
    (hb : dyn = true → ∀ a, -2147483648 ≤ bi a ∧ bi a ≤ 2147483647) : AInv dyn (A.upd dyn bi f) where
  used := by
    intro c k
    rw [show (A.upd dyn bi f).allocated = (A.alloc dyn bi).allocated from rfl, ← (hA.alloc bi hb).used c k]
    simp only [Abs.upd]
    split <;> simp
  bounds := (hA.alloc bi hb).bounds
  range := (hA.alloc bi hb).range

theorem AInv.setExpanded {dyn : Bool} {A : Abs d D} (hA : AInv dyn A) (bi : Idx d) : AInv dyn (A.setExpanded bi) where
  used := by intro c k; rw [allocated_setExpanded]; exact hA.used c k
  bounds := by intro h; rw [allocated_setExpanded]; exact hA.bounds h
  range := by intro h; rw [allocated_setExpanded]; exact hA.range h

/-- a sequence of updates -/
def upds (dyn : Bool) (l : List (Idx d × (D → D))) (A : Abs d D) : Abs d D := l.foldl (fun A e => A.upd dyn e.1 e.2) A

/-- bundle contains a distribution satisfying `exp` -/
def expandable (exp : D → Bool) (A : Abs d D) (bi : Idx d) : Bool :=
  (List.range (2 ^ d)).any fun c =>
    match A.content c (generateIndex bi c) with
    | none => false
    | some x => exp x

def allocNeighbours (dyn : Bool) (bi : Idx d) (l : List (Idx d)) (A : Abs d D) : Abs d D :=
  l.foldl (fun A o => if A.valid dyn (fun a => bi a + o a) then A.alloc dyn (fun a => bi a + o a) else A) A

def allocPartial (dyn : Bool) (exp : D → Bool) (bi : Idx d) (A : Abs d D) : Abs d D :=
  if A.flags bi = some true ∧ A.expandable exp bi = true then (A.allocNeighbours dyn bi (St.offsets d)).setExpanded bi else A

def allocPartialList (dyn : Bool) (exp : D → Bool) (l : List (Idx d)) (A : Abs d D) : Abs d D :=
  l.foldl (fun A bi => A.allocPartial dyn exp bi) A

end Abs

namespace St
variable {d : Nat} {B : Backend d} {D : Type} [Inhabited D]

theorem valid_abs (dyn : Bool) (st : St B D) (i : Idx d) : st.valid dyn i = st.abs.valid dyn i := rfl

theorem expandBundle_abs (L : B.Lawful) (exp : D → Bool) (st : St B D) (hI : Inv L st) (bi : Idx d) (b : Bundle) (hb : st.bundle bi = some b) :
    st.expandBundle exp b = st.abs.expandable exp bi := by
  unfold expandBundle Abs.expandable
  rw [twoPow_eq, Bool.eq_iff_iff, List.any_eq_true, List.any_eq_true]
  apply exists_congr
  intro c
  refine and_congr_right ?_
  intro hc
  obtain ⟨a, h1, h2⟩ := hI.complete bi b hb c (List.mem_range.1 hc)
  have : st.abs.content c (generateIndex bi c) = some (st.heap a) := by
    show st.content c _ = _
    unfold St.content; rw [h2]; rfl
  rw [h1, this]

/-- the conditions under which visiting the neighbourhood stays in contract -/
def GoodNb (dyn : Bool) (bi : Idx d) (l : List (Idx d)) (A : Abs d D) : Prop :=
  ∀ o ∈ l, A.valid dyn (fun a => bi a + o a) = true → A.Good (fun a => bi a + o a)

theorem valid_alloc (dyn : Bool) (bi i : Idx d) (A : Abs d D) : (A.alloc dyn bi).valid dyn i = A.valid dyn i := by
  unfold Abs.valid
  cases dyn with
  | true => rfl
  | false =>
    unfold Abs.alloc; split <;> rfl

theorem allocNeighbours_refines (L : B.Lawful) (dyn : Bool) (bi : Idx d) : ∀ (l : List (Idx d)) (st : St B D), Inv L st →
    Refines L (allocNeighbours dyn bi l st) (GoodNb dyn bi l st.abs) (st.abs.allocNeighbours dyn bi l)
  | [], st, hI => ⟨fun _ => ⟨st, rfl, hI, rfl⟩, fun _ _ => fun o ho => absurd ho List.not_mem_nil⟩
  | o :: l, st, hI => by
    simp only [allocNeighbours, Abs.allocNeighbours, List.foldl_cons]
    rw [valid_abs]
    by_cases hv : st.abs.valid dyn (fun a => bi a + o a) = true
    · simp only [hv, if_true]
      have hr := getAllocate_refines L dyn (fun a => bi a + o a) st hI
      cases hg : getAllocate dyn (fun a => bi a + o a) st with
      | none =>
        simp only
        rw [hg] at hr
        refine ⟨fun h => ?_, fun _ h => by cases h⟩
        obtain ⟨s, hs, _⟩ := hr.1 (h o (List.mem_cons_self ..) hv)
        cases hs
      | some p =>
        obtain ⟨b, st'⟩ := p
        simp only
        rw [hg] at hr
        obtain ⟨hgood, hI', hA'⟩ := hr.of_some rfl
        have ih := allocNeighbours_refines L dyn bi l st' hI'
        rw [hA'] at ih
        have heq : GoodNb dyn bi (o :: l) st.abs ↔ GoodNb dyn bi l (st.abs.alloc dyn (fun a => bi a + o a)) := by
          unfold GoodNb
          simp only [valid_alloc, Abs.good_alloc, List.mem_cons, forall_eq_or_imp]
          exact ⟨fun h => h.2, fun h => ⟨fun _ => hgood, h⟩⟩
        rw [heq]; exact ih
    · simp only [hv]
      have ih := allocNeighbours_refines L dyn bi l st hI
      have heq : GoodNb dyn bi (o :: l) st.abs ↔ GoodNb dyn bi l st.abs := by
        unfold GoodNb
        simp only [List.mem_cons, forall_eq_or_imp]
        exact ⟨fun h => h.2, fun h => ⟨fun x => absurd x hv, h⟩⟩
      rw [heq]; exact ih

theorem flags_of_bundle (st : St B D) (bi : Idx d) (b : Bundle) (h : st.bundle bi = some b) : st.abs.flags bi = some b.expand := by
  show (st.bundle bi).map _ = _; rw [h]; rfl

theorem allocPartial_refines (L : B.Lawful) (dyn : Bool) (exp : D → Bool) (bi : Idx d) (st : St B D) (hI : Inv L st)
    (hb : bi ∈ st.abs.allocated) :
    Refines L (allocPartial dyn exp bi st)
      (st.abs.flags bi = some true → st.abs.expandable exp bi = true → GoodNb dyn bi (offsets d) st.abs)
      (st.abs.allocPartial dyn exp bi) := by
  rw [Abs.mem_allocated] at hb
  have hb' : ((st.bundle bi).map Bundle.expand).isSome = true := hb
  rw [Option.isSome_map] at hb'
  obtain ⟨b, hbb⟩ := Option.isSome_iff_exists.1 hb'
  have hok : B.ok st.bundles bi = true := by
    unfold bundle Backend.look at hbb; split at hbb
    · assumption
    · cases hbb
  have hget : B.get st.bundles bi = some b := by rw [← look_of_ok B _ _ hok]; exact hbb
  have hfl := flags_of_bundle st bi b hbb
  unfold allocPartial
  simp only [hget]
  rw [expandBundle_abs L exp st hI bi b hbb]
  unfold Abs.allocPartial
  by_cases hc : b.expand = true ∧ st.abs.expandable exp bi = true
  · rw [if_pos (by rw [hc.1, hc.2]; rfl), if_pos (by rw [hfl, hc.1]; exact ⟨rfl, hc.2⟩)]
    have hr := allocNeighbours_refines L dyn bi (offsets d) st hI
    have hcond : (st.abs.flags bi = some true → st.abs.expandable exp bi = true → GoodNb dyn bi (offsets d) st.abs) ↔
        GoodNb dyn bi (offsets d) st.abs := by
      constructor
      · intro h; exact h (by rw [hfl, hc.1]) hc.2
      · intro h _ _; exact h
    rw [hcond]
    cases hn : allocNeighbours dyn bi (offsets d) st with
    | none =>
      rw [hn] at hr
      refine ⟨fun h => ?_, fun _ h => by cases h⟩
      obtain ⟨s, hs, _⟩ := hr.1 h; cases hs
    | some st' =>
      rw [hn] at hr
      obtain ⟨hg, hI', hA'⟩ := hr.of_some rfl
      refine ⟨fun _ => ?_, fun _ _ => hg⟩
      have hok' : B.ok st'.bundles bi = true := by
        have : st'.abs.okB bi = true := by
          rw [hA']
          have aux : ∀ (l : List (Idx d)) (A : Abs d D), (A.allocNeighbours dyn bi l).okB = A.okB := by
            intro l
            induction l with
            | nil => intro A; rfl
            | cons o l ih =>
              intro A
              simp only [Abs.allocNeighbours, List.foldl_cons]
              refine (ih _).trans ?_
              split
              · exact Abs.alloc_okB _ _ _
              · rfl
          rw [aux]; exact hok
        exact this
      have := setExpanded_spec L bi st' hI' hok'
      refine ⟨_, rfl, this.1, ?_⟩
      rw [this.2, hA']
  · rw [if_neg (by simpa using hc), if_neg (by rw [hfl]; simpa using hc)]
    refine ⟨fun _ => ⟨st, rfl, hI, rfl⟩, ?_⟩
    intro _ _ h1 h2
    exact absurd ⟨by rw [hfl] at h1; simpa using h1, h2⟩ hc

theorem updateList_refines (L : B.Lawful) (dyn : Bool) : ∀ (l : List (Idx d × (D → D))) (st : St B D), Inv L st →
    Refines L (updateList dyn l st) (∀ e ∈ l, st.abs.Good e.1) (st.abs.upds dyn l)
  | [], st, hI => ⟨fun _ => ⟨st, rfl, hI, rfl⟩, fun _ _ e he => absurd he List.not_mem_nil⟩
  | e :: l, st, hI => by
    have hr := update_refines L dyn e.1 e.2 st hI
    simp only [updateList]
    cases hu : update dyn e.1 e.2 st with
    | none =>
      rw [hu] at hr
      refine ⟨fun h => ?_, fun _ h => by cases h⟩
      obtain ⟨s, hs, _⟩ := hr.1 (h e (List.mem_cons_self ..)); cases hs
    | some st' =>
      rw [hu] at hr
      obtain ⟨hg, hI', hA'⟩ := hr.of_some rfl
      have ih := updateList_refines L dyn l st' hI'
      rw [hA'] at ih
      simp only [Abs.good_upd] at ih
      simp only [Option.bind_some, List.mem_cons, forall_eq_or_imp]
      refine ⟨fun h => ih.1 h.2, fun r h => ⟨hg, ih.2 r h⟩⟩

end St
end Ndt
