import Verif.Proofs.Gridmap
import Mathlib.Data.Multiset.Filter
import Mathlib.Algebra.Order.BigOperators.Group.List

/-! Consequences of the refinement used by the property theorems. -/

namespace Ndt
open St Abs

section
variable {K : Type} [Field K] [LinearOrder K] [FloorRing K] {d : Nat}

/-- states reachable from a new map -/
def Reachable (k : Kind d) (g : Geo K d) (exp : Multiset (Pt K d) → Bool) (st : St k.backend (Multiset (Pt K d))) : Prop :=
  ∃ ops, gridRun g k.dyn exp ops (k.init _) = some st

theorem Reachable.rinv {k : Kind d} {g : Geo K d} {exp : Multiset (Pt K d) → Bool} {st : St k.backend (Multiset (Pt K d))}
    (h : Reachable k g exp st) : RInv k.lawful k.dyn st := by
  obtain ⟨ops, h⟩ := h
  exact (gridRun_spec k.lawful g k.dyn exp ops _ st k.init_rinv h).1

theorem Reachable.keeps {k : Kind d} {g : Geo K d} {exp : Multiset (Pt K d) → Bool} {st : St k.backend (Multiset (Pt K d))}
    (h : Reachable k g exp st) : Keeps k.dyn (k.init (Multiset (Pt K d))).abs st.abs := by
  obtain ⟨ops, h⟩ := h
  exact (gridRun_spec k.lawful g k.dyn exp ops _ st k.init_rinv h).2.1

theorem gridRun_append {B : Backend d} (g : Geo K d) (dyn : Bool) (exp : Multiset (Pt K d) → Bool) (st : St B (Multiset (Pt K d))) :
    ∀ l l' : List (GridOp K d), gridRun g dyn exp (l ++ l') st = (gridRun g dyn exp l st).bind (gridRun g dyn exp l')
  := by
  intro l
  induction l generalizing st with
  | nil => intro l'; rfl
  | cons op l ih =>
    intro l'
    simp only [List.cons_append, gridRun]
    cases gridStep g dyn exp op st with
    | none => rfl
    | some s => exact ih s l'

theorem Reachable.run {k : Kind d} {g : Geo K d} {exp : Multiset (Pt K d) → Bool} {st st' : St k.backend (Multiset (Pt K d))}
    (h : Reachable k g exp st) (ops : List (GridOp K d)) (h' : gridRun g k.dyn exp ops st = some st') : Reachable k g exp st' := by
  obtain ⟨l, hl⟩ := h
  exact ⟨l ++ ops, by rw [gridRun_append, hl]; exact h'⟩

theorem Reachable.step {k : Kind d} {g : Geo K d} {exp : Multiset (Pt K d) → Bool} {st st' : St k.backend (Multiset (Pt K d))}
    (h : Reachable k g exp st) (op : GridOp K d) (h' : gridStep g k.dyn exp op st = some st') : Reachable k g exp st' :=
  h.run [op] (by simp only [gridRun, h']; rfl)

/-- in-range bundles of dynamic maps have all their distributions in range -/
theorem dynamic_good (D : Type) [Inhabited D] (g : Nat → Nat) (g' : Nat) (bi : Idx d) (h : Spec.InRange bi) :
    ((Kind.dynamic g g').init D).abs.Good bi := by
  constructor
  · exact decide_eq_true h
  · intro c _
    show decide (Spec.InRange (generateIndex bi c)) = true
    refine decide_eq_true ?_
    intro a
    have := h a
    have hg : generateIndex bi c a = if c.testBit a.1 then (bi a + 1) / 2 else bi a / 2 := getIndexInner_eq _ _ _
    rw [hg]
    split <;> omega

/-- an operation only mentions indices with coordinates in `[-n, n]` -/
def OpWithin (g : Geo K d) (n : Int) : GridOp K d → Prop
  | .insert pose cloud => ∀ p ∈ accList g (fun _ => true) pose cloud, ∀ a, |toBundleIndex g.r p a| ≤ n
  | .core (.bundleAt bi) => ∀ a, |bi a| ≤ n
  | .core (.get bi) => ∀ a, |bi a| ≤ n
  | .core (.expandOne bi) => ∀ a, |bi a| ≤ n
  | .core .expandAll => True

/-- number of expansion operations of a history -/
def expansions : List (GridOp K d) → Nat
  | [] => 0
  | .core (.expandOne _) :: l => expansions l + 1
  | .core .expandAll :: l => expansions l + 1
  | _ :: l => expansions l

def Within (n : Int) (S : Set (Idx d)) : Prop := ∀ bi ∈ S, ∀ a, |bi a| ≤ n

theorem Within.mono {n m : Int} {S : Set (Idx d)} (h : Within n S) (hm : n ≤ m) : Within m S := fun bi hb a => le_trans (h bi hb a) hm

theorem inRange_of_abs {bi : Idx d} {n : Int} (hn : n ≤ 32767) (h : ∀ a, |bi a| ≤ n) : Spec.InRange bi := by
  intro a
  have := abs_le.1 (h a)
  omega

theorem within_allocPartialList {D : Type} [Inhabited D] (L : (octreeBackend d).Lawful) (exp : D → Bool) (l : List (Idx d)) (st st' : St (octreeBackend d) D)
    (hI : RInv L true st) (hal : ∀ bi ∈ l, bi ∈ st.abs.allocated) (hnd : l.Nodup) (m : Int) (hw : Within m st.abs.allocated)
    (h : allocPartialList true exp l st = some st') : Within (m + 1) st'.abs.allocated := by
  obtain ⟨_, x2, _, x4⟩ := (allocPartialList_spec L true exp l st hI hal).1 st' h
  have e := (Abs.flags_allocPartialList true exp l st.abs hI.ainv hI.rng hnd hal (fun b hb ht => x4 b hb hnd ht)).2
  intro bj hbj a
  rw [x2, mem_allocated, e] at hbj
  split at hbj
  · rename_i h1
    have := hw bj (hal bj h1.1) a
    omega
  · split at hbj
    · rename_i h2
      obtain ⟨_, bi, hbi, _, hn⟩ := h2
      have h3 := hw bi (hal bi hbi) a
      have h4 := hn a
      have h5 := abs_add_le (bi a) (bj a - bi a)
      rw [show bi a + (bj a - bi a) = bj a by ring] at h5
      omega
    · have := hw bj hbj a
      omega

/-- a history on a dynamic map stays in contract if indices plus number of expansions stay in range -/
theorem dynamic_run_total (g : Geo K d) (exp : Multiset (Pt K d) → Bool) (gb : Nat → Nat) (gb' : Nat) (n : Int) :
    ∀ (ops : List (GridOp K d)) (st : St (octreeBackend d) (Multiset (Pt K d))), RInv (octreeLawful d) true st →
    Keeps true ((Kind.dynamic gb gb').init (Multiset (Pt K d))).abs st.abs → (∀ op ∈ ops, OpWithin g n op) → ∀ m : Int, n ≤ m →
    Within m st.abs.allocated → m + (expansions ops : Int) ≤ 32767 →
    ∃ st', gridRun g true exp ops st = some st'
  | [], st, _, _, _, _, _, _, _ => ⟨st, rfl⟩
  | op :: ops, st, hI, hk, hops, m, hnm, hw, hm => by
    have hgood : ∀ bi, (∀ a, |bi a| ≤ m + (expansions (op :: ops) : Int)) → st.abs.Good bi := fun bi hb =>
      (hk.good bi).2 (dynamic_good _ gb gb' bi (inRange_of_abs hm hb))
    have hop := hops op (List.mem_cons_self ..)
    have hops' : ∀ o ∈ ops, OpWithin g n o := fun o ho => hops o (List.mem_cons_of_mem _ ho)
    have hcont : ∀ st1, gridStep g true exp op st = some st1 → (∃ m', n ≤ m' ∧ Within m' st1.abs.allocated ∧ m' + (expansions ops : Int) ≤ 32767) →
        ∃ st', gridRun g true exp (op :: ops) st = some st' := by
      intro st1 h1 ⟨m', h2, h3, h4⟩
      have hr : gridRun g true exp [op] st = some st1 := by simp only [gridRun, h1]; rfl
      obtain ⟨a1, a2, _⟩ := gridRun_spec (octreeLawful d) g true exp [op] st st1 hI hr
      obtain ⟨s, hs⟩ := dynamic_run_total g exp gb gb' n ops st1 a1 (hk.trans a2) hops' m' h2 h3 h4
      exact ⟨s, by simp only [gridRun, h1, Option.bind_some, hs]⟩
    cases op with
    | insert pose cloud =>
      have hv : st.abs.valid true = fun _ => true := rfl
      obtain ⟨s, hs⟩ := gridInsert_total (octreeLawful d) g true pose cloud st hI (fun p hp => hgood _ (fun a => by
        have := hop p hp a; omega))
      refine hcont s hs ⟨m, hnm, ?_, hm⟩
      obtain ⟨_, _, _, a4, _⟩ := gridInsert_spec (octreeLawful d) g true pose cloud st s hI hs
      intro bj hbj a
      rw [mem_allocated, a4] at hbj
      split at hbj
      · rename_i h
        obtain ⟨p, hp, rfl⟩ := h
        exact le_trans (hop p hp a) hnm
      · exact hw bj hbj a
    | core cop =>
      cases cop with
      | bundleAt bi =>
        have hg : st.abs.Good bi := hgood bi (fun a => by have := hop a; omega)
        obtain ⟨b, st1, h1, _, hA, _⟩ := getAllocate_spec (octreeLawful d) true bi st hI.inv hg
        refine hcont st1 ?_ ⟨m, hnm, ?_, hm⟩
        · simp only [gridStep, coreStep, getDistributionBundle, h1]
          rfl
        · rw [hA, allocated_alloc]
          rintro bj (rfl | hbj) a
          · exact le_trans (hop a) hnm
          · exact hw bj hbj a
      | get bi =>
        have hg : st.abs.Good bi := hgood bi (fun a => by have := hop a; omega)
        refine hcont st ?_ ⟨m, hnm, hw, hm⟩
        simp only [gridStep, coreStep, getBundle]
        rw [if_pos (show st.valid true bi = true from rfl), if_pos (show (octreeBackend d).ok st.bundles bi = true from hg.1)]
        rfl
      | expandOne bi =>
        have hg : st.abs.Good bi := hgood bi (fun a => by have := hop a; omega)
        have hm' : m + 1 + (expansions ops : Int) ≤ 32767 := by
          have : expansions (GridOp.core (CoreOp.expandOne bi) :: ops : List (GridOp K d)) = expansions ops + 1 := rfl
          rw [this] at hm; push_cast at hm; omega
        have hgb : getBundle true bi st = some ((octreeBackend d).get st.bundles bi) := by
          unfold getBundle
          rw [if_pos (show st.valid true bi = true from rfl), if_pos (show (octreeBackend d).ok st.bundles bi = true from hg.1)]
        cases hget : (octreeBackend d).get st.bundles bi with
        | none =>
          rw [hget] at hgb
          refine hcont st ?_ ⟨m, hnm, hw, by omega⟩
          simp only [gridStep, coreStep, hgb]
        | some b =>
          rw [hget] at hgb
          have hb : bi ∈ st.abs.allocated := by
            rw [mem_allocated_iff]; unfold bundle Backend.look
            rw [if_pos (show (octreeBackend d).ok st.bundles bi = true from hg.1), hget]; rfl
          have hal : ∀ b ∈ [bi], b ∈ st.abs.allocated := by intro b hb'; rw [List.mem_singleton] at hb'; subst hb'; exact hb
          have hnb : ∀ b ∈ [bi], GoodNb true b (offsets d) st.abs := by
            intro b hb' o ho _
            rw [List.mem_singleton] at hb'; subst hb'
            refine (hk.good _).2 (dynamic_good _ gb gb' _ (inRange_of_abs (n := m + 1) (by omega) ?_))
            intro a
            have h1 := hw b hb a
            have h2 := (mem_offsets o).1 ho a
            have h3 := abs_add_le (b a) (o a)
            have h4 : |o a| ≤ 1 := abs_le.2 h2
            omega
          obtain ⟨s, hs⟩ := (allocPartialList_spec (octreeLawful d) true exp [bi] st hI hal).2 hnb
          refine hcont s ?_ ⟨m + 1, by omega, within_allocPartialList _ exp [bi] st s hI hal (by simp) m hw hs, hm'⟩
          simp only [gridStep, coreStep, hgb]
          simp only [St.allocPartialList] at hs
          cases hp : allocPartial true exp bi st with
          | none => rw [hp] at hs; cases hs
          | some s' => rw [hp] at hs; exact hs
      | expandAll =>
        have hm' : m + 1 + (expansions ops : Int) ≤ 32767 := by
          have : expansions (GridOp.core CoreOp.expandAll :: ops : List (GridOp K d)) = expansions ops + 1 := rfl
          rw [this] at hm; push_cast at hm; omega
        have hal : ∀ b ∈ st.bundleIndices, b ∈ st.abs.allocated := by
          intro b hb; rw [mem_allocated_iff]; exact (mem_bundleIndices _ st hI.inv b).1 hb
        have hnb : ∀ b ∈ st.bundleIndices, GoodNb true b (offsets d) st.abs := by
          intro b hb' o ho _
          refine (hk.good _).2 (dynamic_good _ gb gb' _ (inRange_of_abs (n := m + 1) (by omega) ?_))
          intro a
          have h1 := hw b (hal b hb') a
          have h2 := (mem_offsets o).1 ho a
          have h3 := abs_add_le (b a) (o a)
          have h4 : |o a| ≤ 1 := abs_le.2 h2
          omega
        obtain ⟨s, hs⟩ := (allocPartialList_spec (octreeLawful d) true exp _ st hI hal).2 hnb
        exact hcont s hs ⟨m + 1, by omega,
          within_allocPartialList _ exp _ st s hI hal (nodup_bundleIndices _ st hI.inv) m hw hs, hm'⟩

end

/-- counting by key: a duplicate-free list of keys that contains every element's key -/
theorem sum_card_filter {α β : Type} [DecidableEq β] (f : α → β) (s : List α) : ∀ ks : List β, ks.Nodup → (∀ x ∈ s, f x ∈ ks) →
    (ks.map fun k => (s.filter fun x => decide (f x = k)).length).sum = s.length := by
  induction s with
  | nil => intro ks _ _; induction ks with
    | nil => rfl
    | cons k ks ih => simp
  | cons x s ih =>
    intro ks hnd hks
    have hih := ih ks hnd (fun y hy => hks y (List.mem_cons_of_mem _ hy))
    have hx := hks x (List.mem_cons_self ..)
    have hcount : ∀ ks : List β, (ks.map fun k => ((x :: s).filter fun y => decide (f y = k)).length).sum =
        (ks.map fun k => (s.filter fun y => decide (f y = k)).length).sum + ks.count (f x) := by
      intro ks
      induction ks with
      | nil => rfl
      | cons k ks ihk =>
        rw [List.map_cons, List.sum_cons, ihk, List.map_cons, List.sum_cons, List.filter_cons]
        by_cases e : f x = k
        · subst e; simp; omega
        · have e' : ¬ k = f x := fun h => e h.symm
          simp [e, e']; omega
    rw [hcount, hih, List.count_eq_one_of_mem hnd hx]
    simp

end Ndt
