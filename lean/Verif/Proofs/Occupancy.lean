import Verif.Spec.OccSpec
import Mathlib.Algebra.BigOperators.Group.List.Basic
import Mathlib.Tactic.Linarith
import Mathlib.Tactic.NormNum
import Mathlib.Tactic.Positivity
import Mathlib.Tactic.Ring

/-! Lemmas on occupancy distributions. -/

namespace Ndt

namespace Occ
variable {W E : Type} [AddCommMonoid W]

omit [AddCommMonoid W] in
@[ext] theorem ext' {o p : Occ W E} (h : o.free = p.free) (h' : o.data = p.data) : o = p := by
  cases o; cases p; cases h; cases h'; rfl

/-- union of optional sample sets -/
def addData : Option (Multiset E) → Option (Multiset E) → Option (Multiset E)
  | none, y => y
  | some s, none => some s
  | some s, some t => some (s + t)

theorem addData_comm (x y : Option (Multiset E)) : addData x y = addData y x := by
  cases x <;> cases y <;> simp [addData, add_comm]
theorem addData_assoc (x y z : Option (Multiset E)) : addData (addData x y) z = addData x (addData y z) := by
  cases x <;> cases y <;> cases z <;> simp [addData, add_assoc]
theorem addData_none (x : Option (Multiset E)) : addData x none = x := by cases x <;> rfl

instance : Zero (Occ W E) := ⟨⟨0, none⟩⟩
instance : Add (Occ W E) := ⟨fun o p => ⟨o.free + p.free, addData o.data p.data⟩⟩

theorem add_free (o p : Occ W E) : (o + p).free = o.free + p.free := rfl
theorem add_data (o p : Occ W E) : (o + p).data = addData o.data p.data := rfl

instance : AddCommMonoid (Occ W E) where
  add_assoc o p q := ext' (add_assoc ..) (addData_assoc ..)
  zero_add o := ext' (zero_add _) rfl
  add_zero o := ext' (add_zero _) (addData_none _)
  add_comm o p := ext' (add_comm ..) (addData_comm ..)
  nsmul := nsmulRec

theorem new_eq : (new : Occ W E) = 0 := rfl

theorem updateFree_eq (n : W) (o : Occ W E) : o.updateFree n = o + ⟨n, none⟩ := ext' rfl (addData_none _).symm
theorem updateOccupied_eq (m : Multiset E) (o : Occ W E) : o.updateOccupied m = o + ⟨0, some m⟩ := by
  unfold updateOccupied
  refine ext' ?_ ?_
  · rw [add_free, add_zero]; cases o.data <;> rfl
  · rw [add_data]; cases o.data <;> rfl

theorem samples_add (o p : Occ W E) : (o + p).samples = o.samples + p.samples := by
  unfold samples
  rw [add_data]
  cases o.data <;> cases p.data <;> simp [addData]

/-- sample set and counter as monoid homomorphisms -/
def freeHom : Occ W E →+ W := { toFun := Occ.free, map_zero' := rfl, map_add' := add_free }
def samplesHom : Occ W E →+ Multiset E := { toFun := Occ.samples, map_zero' := rfl, map_add' := samples_add }

theorem numOccupied_eq (o : Occ W E) : o.numOccupied = o.samples.card := by
  unfold numOccupied samples; cases o.data <;> rfl

end Occ

namespace OccOp
variable {W E : Type} [AddCommMonoid W]

/-- the contribution of an update -/
def toOcc : OccOp W E → Occ W E
  | free n => ⟨n, none⟩
  | point x => ⟨0, some {x}⟩
  | dist m => ⟨0, some m⟩
  | ptr none => 0
  | ptr (some m) => ⟨0, some m⟩

theorem step_eq (o : Occ W E) (op : OccOp W E) : step o op = o + op.toOcc := by
  cases op with
  | free n => exact Occ.updateFree_eq n o
  | point x =>
    refine Occ.ext' ?_ ?_
    · rw [Occ.add_free]; exact (add_zero _).symm
    · rw [Occ.add_data]; show some (_ + {x}) = _; cases o.data <;> simp [toOcc, Occ.addData]
  | dist m => exact Occ.updateOccupied_eq m o
  | ptr d =>
    cases d with
    | none => exact (add_zero o).symm
    | some m =>
      refine Occ.ext' ?_ ?_
      · rw [Occ.add_free]; exact (add_zero _).symm
      · rw [Occ.add_data]; show some (_ + m) = _; cases o.data <;> simp [toOcc, Occ.addData]

theorem foldl_eq (h : List (OccOp W E)) : ∀ o : Occ W E, h.foldl step o = o + (h.map toOcc).sum := by
  induction h with
  | nil => intro o; simp
  | cons op h ih => intro o; rw [List.foldl_cons, ih, step_eq, List.map_cons, List.sum_cons, add_assoc]

theorem run_eq (h : List (OccOp W E)) : run h = (h.map toOcc).sum := by
  unfold run; rw [foldl_eq, Occ.new_eq, zero_add]

theorem run_append (h h' : List (OccOp W E)) : run (h ++ h') = run h + run h' := by
  simp only [run_eq, List.map_append, List.sum_append]

theorem free_toOcc (op : OccOp W E) : op.toOcc.free = Spec.freeOf op := by
  cases op with
  | ptr d => cases d <;> rfl
  | _ => rfl

theorem samples_toOcc (op : OccOp W E) : op.toOcc.samples = Spec.hitsOf op := by
  cases op with
  | ptr d => cases d <;> rfl
  | _ => rfl

theorem run_free (h : List (OccOp W E)) : (run h).free = (h.map Spec.freeOf).sum := by
  rw [run_eq]
  refine (map_list_sum Occ.freeHom _).trans ?_
  rw [List.map_map]
  exact congrArg List.sum (List.map_congr_left fun op _ => free_toOcc op)

theorem run_samples (h : List (OccOp W E)) : (run h).samples = (h.map Spec.hitsOf).sum := by
  rw [run_eq]
  refine (map_list_sum Occ.samplesHom _).trans ?_
  rw [List.map_map]
  exact congrArg List.sum (List.map_congr_left fun op _ => samples_toOcc op)

/-- no null distribution with samples, no empty distribution object -/
theorem run_data {h : List (OccOp W E)} (hs : ∀ op ∈ h, Spec.Substantial op) :
    ((run h).samples = 0 → (run h).data = none) ∧ ((run h).samples ≠ 0 → (run h).data = some (run h).samples) := by
  suffices ∀ o : Occ W E, (o.data = none ∨ ∃ s, o.data = some s ∧ s ≠ 0) →
      ((h.foldl step o).data = none ∨ ∃ s, (h.foldl step o).data = some s ∧ s ≠ 0) by
    have h1 := this Occ.new (Or.inl rfl)
    change (run h).data = none ∨ ∃ s, (run h).data = some s ∧ s ≠ 0 at h1
    rcases h1 with h1 | ⟨s, h1, h2⟩
    · exact ⟨fun _ => h1, fun h => absurd (by unfold Occ.samples; rw [h1]) h⟩
    · have : (run h).samples = s := by unfold Occ.samples; rw [h1]
      rw [this]; exact ⟨fun e => absurd e h2, fun _ => h1⟩
  induction h with
  | nil => intro o h; exact h
  | cons op h ih =>
    intro o ho
    rw [List.foldl_cons]
    refine ih (fun op' h' => hs op' (List.mem_cons_of_mem _ h')) _ ?_
    have hop := hs op (List.mem_cons_self ..)
    have key : ∀ m : Multiset E, m ≠ 0 → ((o + ⟨0, some m⟩ : Occ W E).data = none ∨ ∃ s, (o + ⟨0, some m⟩ : Occ W E).data = some s ∧ s ≠ 0) := by
      intro m hm
      right
      rw [Occ.add_data]
      cases o.data with
      | none => exact ⟨m, rfl, hm⟩
      | some s => exact ⟨s + m, rfl, fun e => hm (add_eq_zero.1 e).2⟩
    rw [step_eq]
    cases op with
    | free n =>
      have e : (o + (OccOp.free n : OccOp W E).toOcc).data = o.data := Occ.addData_none _
      rw [e]; exact ho
    | point x => exact key _ (Multiset.singleton_ne_zero x)
    | dist m => exact key m hop
    | ptr d =>
      cases d with
      | none =>
        have e : (o + (OccOp.ptr none : OccOp W E).toOcc).data = o.data := Occ.addData_none _
        rw [e]; exact ho
      | some m => exact key m hop

end OccOp

theorem logOddsFrom_lt {a b : ℝ} (h : a < b) : logOddsFrom a < logOddsFrom b := by
  unfold logOddsFrom
  have h1 := Real.exp_lt_exp.2 h
  have h2 := Real.exp_pos a
  have : 1 / (1 + Real.exp b) < 1 / (1 + Real.exp a) := one_div_lt_one_div_of_lt (by linarith) (by linarith)
  linarith
theorem logOddsFrom_le {a b : ℝ} (h : a ≤ b) : logOddsFrom a ≤ logOddsFrom b := by
  rcases h.lt_or_eq with h | rfl
  · exact (logOddsFrom_lt h).le
  · exact le_refl _
theorem logOddsFrom_pos (a : ℝ) : 0 < logOddsFrom a := by
  unfold logOddsFrom
  have h2 := Real.exp_pos a
  have : 1 / (1 + Real.exp a) < 1 := by rw [div_lt_one (by linarith)]; linarith
  linarith
theorem logOddsFrom_lt_one (a : ℝ) : logOddsFrom a < 1 := by
  unfold logOddsFrom
  have h2 := Real.exp_pos a
  have : 0 < 1 / (1 + Real.exp a) := by positivity
  linarith

theorem wrapMinusOne_eq {a b : Nat} (h : 0 < b) (hw : a + b ≤ 2 ^ 64) : wrapMinusOne a b = a + b - 1 := by
  unfold wrapMinusOne; omega

namespace OccMem
variable {W E : Type} [AddCommMonoid W]
open Spec

/-- pointers are allocated, and different objects have different distributions -/
structure Sep (s : OccMem W E) : Prop where
  fresh : ∀ v a, (s.objs v).ptr = some a → a < s.next
  inj : ∀ v w a, (s.objs v).ptr = some a → (s.objs w).ptr = some a → v = w

omit [AddCommMonoid W] in
theorem view_samples (s : OccMem W E) (v : Nat) : (s.view v).samples = ((s.objs v).ptr.map s.heap).getD 0 := by
  unfold view Occ.samples
  cases (s.objs v).ptr <;> rfl

theorem sep_new : Sep (new : OccMem W E) := ⟨fun _ _ h => absurd h (by simp [new]), fun _ _ _ h => absurd h (by simp [new])⟩

theorem sep_alloc {s : OccMem W E} (h : Sep s) (v : Nat) (m : Multiset E) (f : W) :
    Sep (⟨Function.update s.heap s.next m, s.next + 1, Function.update s.objs v ⟨f, some s.next⟩⟩ : OccMem W E) ∧
    ∀ w, (⟨Function.update s.heap s.next m, s.next + 1, Function.update s.objs v ⟨f, some s.next⟩⟩ : OccMem W E).view w =
      Function.update s.view v ⟨f, some m⟩ w := by
  refine ⟨⟨?_, ?_⟩, ?_⟩
  · intro w a hw
    by_cases e : w = v
    · subst e; simp at hw; simp; omega
    · simp [Function.update_of_ne e] at hw; have := h.fresh w a hw; simp; omega
  · intro w x a hw hx
    by_cases e : w = v <;> by_cases e' : x = v
    · rw [e, e']
    · subst e
      simp [Function.update_of_ne e'] at hw hx
      have := h.fresh x a hx; omega
    · subst e'
      simp [Function.update_of_ne e] at hw hx
      have := h.fresh w a hw; omega
    · simp [Function.update_of_ne e, Function.update_of_ne e'] at hw hx
      exact h.inj w x a hw hx
  · intro w
    by_cases e : w = v
    · subst e; simp [view]
    · simp only [view, Function.update_of_ne e]
      refine Occ.ext' rfl ?_
      simp only
      cases hp : (s.objs w).ptr with
      | none => rfl
      | some a =>
        have := h.fresh w a hp
        simp only [Option.map_some]
        rw [Function.update_of_ne (by omega)]

theorem sep_heap {s : OccMem W E} (h : Sep s) (v a : Nat) (hv : (s.objs v).ptr = some a) (m : Multiset E) :
    Sep { s with heap := Function.update s.heap a m } ∧
    ∀ w, ({ s with heap := Function.update s.heap a m } : OccMem W E).view w = Function.update s.view v ⟨(s.view v).free, some m⟩ w := by
  refine ⟨⟨h.fresh, h.inj⟩, ?_⟩
  intro w
  by_cases e : w = v
  · subst e; simp [view, hv]
  · simp only [view, Function.update_of_ne e]
    refine Occ.ext' rfl ?_
    simp only
    cases hp : (s.objs w).ptr with
    | none => rfl
    | some b =>
      simp only [Option.map_some]
      rw [Function.update_of_ne]
      intro e'; subst e'; exact e (h.inj w v b hp hv)

omit [AddCommMonoid W] in
theorem sep_free {s : OccMem W E} (h : Sep s) (v : Nat) (f : W) :
    Sep { s with objs := Function.update s.objs v { s.objs v with free := f } } ∧
    ∀ w, ({ s with objs := Function.update s.objs v { s.objs v with free := f } } : OccMem W E).view w = Function.update s.view v ⟨f, (s.view v).data⟩ w := by
  have hp : ∀ w, ((Function.update s.objs v { s.objs v with free := f }) w).ptr = (s.objs w).ptr := by
    intro w
    by_cases e : w = v
    · subst e; simp
    · rw [Function.update_of_ne e]
  refine ⟨⟨fun w a hw => h.fresh w a (by rw [← hp]; exact hw), fun w x a hw hx => h.inj w x a (by rw [← hp]; exact hw) (by rw [← hp]; exact hx)⟩, ?_⟩
  intro w
  by_cases e : w = v
  · subst e; simp [view]
  · simp [view, Function.update_of_ne e]

omit [AddCommMonoid W] in
theorem sep_null {s : OccMem W E} (h : Sep s) (v : Nat) (f : W) :
    Sep { s with objs := Function.update s.objs v ⟨f, none⟩ } ∧
    ∀ w, ({ s with objs := Function.update s.objs v ⟨f, none⟩ } : OccMem W E).view w = Function.update s.view v ⟨f, none⟩ w := by
  refine ⟨⟨?_, ?_⟩, ?_⟩
  · intro w a hw
    by_cases e : w = v
    · subst e; simp at hw
    · simp [Function.update_of_ne e] at hw; exact h.fresh w a hw
  · intro w x a hw hx
    by_cases e : w = v
    · subst e; simp at hw
    · by_cases e' : x = v
      · subst e'; simp at hx
      · simp [Function.update_of_ne e, Function.update_of_ne e'] at hw hx
        exact h.inj w x a hw hx
  · intro w
    by_cases e : w = v
    · subst e; simp [view]
    · simp [view, Function.update_of_ne e]

omit [AddCommMonoid W] in
theorem view_data_none {s : OccMem W E} {v : Nat} : (s.view v).data = none ↔ (s.objs v).ptr = none := by
  unfold view; simp

/-- one step without sharing refines value semantics -/
theorem step_refines (deep : Bool) (s : OccMem W E) (h : Sep s) (op : MemOp W E) (hn : NoShare deep s.view op) :
    Sep (step deep s op) ∧ (step deep s op).view = envStep s.view op := by
  cases op with
  | free v n =>
    obtain ⟨h1, h2⟩ := sep_free h v ((s.objs v).free + n)
    exact ⟨h1, funext h2⟩
  | point v x =>
    simp only [step, envStep, addSamples, view_samples]
    cases hp : (s.objs v).ptr with
    | none =>
      obtain ⟨h1, h2⟩ := sep_alloc h v (0 + {x}) (s.objs v).free
      exact ⟨h1, funext h2⟩
    | some a =>
      obtain ⟨h1, h2⟩ := sep_heap h v a hp (s.heap a + {x})
      exact ⟨h1, funext h2⟩
  | dist v m =>
    simp only [step, envStep, addSamples, view_samples]
    cases hp : (s.objs v).ptr with
    | none =>
      obtain ⟨h1, h2⟩ := sep_alloc h v m (s.objs v).free
      refine ⟨h1, funext fun w => (h2 w).trans ?_⟩
      simp [view]
    | some a =>
      obtain ⟨h1, h2⟩ := sep_heap h v a hp (s.heap a + m)
      exact ⟨h1, funext h2⟩
  | copy v w =>
    simp only [step, envStep]
    have hview : ∀ a, (s.objs w).ptr = some a → s.view w = ⟨(s.objs w).free, some (s.heap a)⟩ := by
      intro a ha; unfold view; rw [ha]; rfl
    have hview0 : (s.objs w).ptr = none → s.view w = ⟨(s.objs w).free, none⟩ := by
      intro ha; unfold view; rw [ha]; rfl
    cases hd : deep with
    | true =>
      simp only [if_true]
      cases hp : (s.objs w).ptr with
      | none =>
        obtain ⟨h1, h2⟩ := sep_null h v (s.objs w).free
        refine ⟨h1, funext fun x => ?_⟩
        rw [hview0 hp]; exact h2 x
      | some a =>
        obtain ⟨h1, h2⟩ := sep_alloc h v (s.heap a) (s.objs w).free
        refine ⟨h1, funext fun x => ?_⟩
        rw [hview a hp]; exact h2 x
    | false =>
      simp only [Bool.false_eq_true, if_false]
      rcases hn with hn | hn | hn
      · rw [hd] at hn; cases hn
      · have hp := view_data_none.1 hn
        obtain ⟨h1, h2⟩ := sep_null h v (s.objs w).free
        have e : s.objs w = ⟨(s.objs w).free, none⟩ := by rw [← hp]
        rw [← e] at h1 h2
        refine ⟨h1, funext fun x => ?_⟩
        rw [hview0 hp]; exact h2 x
      · subst hn
        rw [Function.update_eq_self, Function.update_eq_self]
        exact ⟨h, rfl⟩
  | merge v w =>
    simp only [step, envStep]
    obtain ⟨h1, h2⟩ := sep_free h v ((s.objs v).free + (s.objs w).free)
    cases hp : (s.objs w).ptr with
    | none =>
      refine ⟨h1, funext fun x => (h2 x).trans ?_⟩
      have hw : s.view w = ⟨(s.objs w).free, none⟩ := by unfold view; rw [hp]; rfl
      refine congrFun (congrArg _ ?_) x
      unfold together
      rw [hw]
      refine Occ.ext' rfl ?_
      show (s.view v).data = _
      cases hv : (s.view v).data with
      | none => rw [if_pos ⟨rfl, rfl⟩]
      | some t => rw [if_neg (by simp)]; simp [Occ.samples, hv]
    | some b =>
      have hv : (s.objs v).ptr ≠ none := by
        rcases hn with hn | hn
        · rw [view_data_none, hp] at hn; cases hn
        · exact fun e => hn (view_data_none.2 e)
      cases hq : (s.objs v).ptr with
      | none => exact absurd hq hv
      | some a =>
        obtain ⟨g1, g2⟩ := sep_heap h1 v a (by simp [hq]) (s.heap a + s.heap b)
        simp only [hq] at g1 g2 h2
        refine ⟨g1, funext fun x => (g2 x).trans ?_⟩
        by_cases e : x = v
        · subst e
          simp [together, view, Occ.samples, hp, hq]
        · rw [Function.update_of_ne e, Function.update_of_ne e, h2, Function.update_of_ne e]

theorem run_refines (deep : Bool) : ∀ (h : List (MemOp W E)) (s : OccMem W E), Sep s → NoShareRun deep h s.view →
    Sep (run deep h s) ∧ (run deep h s).view = envRun h s.view
  | [], s, hs, _ => ⟨hs, rfl⟩
  | op :: h, s, hs, hn => by
    obtain ⟨h1, h2⟩ := step_refines deep s hs op hn.1
    have := run_refines deep h (step deep s op) h1 (by rw [h2]; exact hn.2)
    refine ⟨this.1, this.2.trans ?_⟩
    rw [h2]; rfl

end OccMem
end Ndt
