import Verif.Proofs.CoreStep
import Verif.Spec.Points
import Mathlib.Algebra.BigOperators.Group.List.Basic

/-! Refinement of insertion into the NDT map. -/

namespace Ndt

section upsert
variable {d : Nat} {E : Type}

theorem mem_upsert_keys (dflt : E) (f : E → E) (b x : Idx d) : ∀ l : List (Idx d × E),
    x ∈ (upsert dflt f b l).map Prod.fst ↔ x = b ∨ x ∈ l.map Prod.fst
  | [] => by simp [upsert]
  | (j, e) :: l => by
    unfold upsert
    split
    · rename_i h; subst h; simp
    · split
      · simp
      · simp only [List.map_cons, List.mem_cons, mem_upsert_keys dflt f b x l]
        exact ⟨fun h => by rcases h with h | h | h <;> tauto, fun h => by rcases h with h | h | h <;> tauto⟩

theorem sum_upsert {M : Type} [AddCommMonoid M] (m : M) (b : Idx d) (P : Idx d → Bool) : ∀ l : List (Idx d × M),
    (((upsert 0 (fun s => s + m) b l).filter (fun e => P e.1)).map Prod.snd).sum =
      ((l.filter (fun e => P e.1)).map Prod.snd).sum + (if P b then m else 0)
  | [] => by
    unfold upsert
    cases h : P b <;> simp [h]
  | (j, e) :: l => by
    unfold upsert
    split
    · rename_i h
      subst h
      cases h : P j <;> simp [h, add_comm, add_left_comm, add_assoc]
    · split
      · cases h : P b <;> cases h' : P j <;> simp [h, h', add_comm, add_left_comm]
      · have ih := sum_upsert m b P l
        cases h' : P j <;> simp [h', ih, add_assoc]

end upsert

namespace Abs
variable {d : Nat}

theorem keeps_upds {D : Type} [Inhabited D] (dyn : Bool) : ∀ (l : List (Idx d × (D → D))) (A : Abs d D), Keeps dyn A (A.upds dyn l)
  | [], A => .refl ..
  | e :: l, A => (keeps_upd dyn e.1 e.2 A).trans (keeps_upds dyn l _)

theorem flags_upds {D : Type} [Inhabited D] (dyn : Bool) (bj : Idx d) : ∀ (l : List (Idx d × (D → D))) (A : Abs d D),
    (A.upds dyn l).flags bj = if bj ∈ l.map Prod.fst then some ((A.flags bj).getD true) else A.flags bj
  | [], A => by simp [upds]
  | e :: l, A => by
    refine (flags_upds dyn bj l _).trans ?_
    rw [flags_upd]
    by_cases h : bj = e.1
    · subst h; simp
    · rw [if_neg h, List.map_cons]; simp only [List.mem_cons, h, false_or]

theorem ainv_upds {D : Type} [Inhabited D] (dyn : Bool) : ∀ (l : List (Idx d × (D → D))) (A : Abs d D), AInv dyn A → A.Rng dyn →
    (∀ e ∈ l, A.okB e.1 = true) → AInv dyn (A.upds dyn l)
  | [], A, h, _, _ => h
  | e :: l, A, h, hr, hl => by
    refine ainv_upds dyn l _ (h.upd e.1 e.2 fun hd => hr hd e.1 (hl e (List.mem_cons_self ..))) ?_ ?_
    · intro hd bi hb; exact hr hd bi (by rw [upd_okB] at hb; exact hb)
    · intro e' he'; rw [upd_okB]; exact hl e' (List.mem_cons_of_mem _ he')

/-- contents after a list of additive updates -/
theorem val_upds_add {M : Type} [AddCommMonoid M] (dyn : Bool) (c : Nat) (hc : c < 2 ^ d) (i : Idx d) :
    letI : Inhabited M := ⟨0⟩
    ∀ (l : List (Idx d × M)) (A : Abs d M), AInv dyn A → A.Rng dyn → (∀ e ∈ l, A.okB e.1 = true) →
    (A.upds dyn (l.map fun e => (e.1, fun s => s + e.2))).val c i =
      A.val c i + ((l.filter (fun e => decide (generateIndex e.1 c = i))).map Prod.snd).sum := by
  letI : Inhabited M := ⟨0⟩
  intro l
  induction l with
  | nil => intro A _ _ _; simp [upds]
  | cons e l ih =>
    intro A hA hr hl
    simp only [List.map_cons]
    refine (ih (A.upd dyn e.1 _) (hA.upd e.1 _ fun hd => hr hd e.1 (hl e (List.mem_cons_self ..))) ?_ ?_).trans ?_
    · intro hd bi hb; exact hr hd bi (by rw [upd_okB] at hb; exact hb)
    · intro e' he'; rw [upd_okB]; exact hl e' (List.mem_cons_of_mem _ he')
    · rw [val_upd dyn e.1 _ A hA]
      by_cases h : generateIndex e.1 c = i
      · rw [if_pos ⟨hc, h⟩, List.filter_cons_of_pos (by simpa using h)]
        simp [add_assoc]
      · rw [if_neg (fun x => h x.2), List.filter_cons_of_neg (by simpa using h)]

theorem ext_of_ainv {D : Type} [Inhabited D] {dyn : Bool} {A A' : Abs d D} (h : AInv dyn A) (h' : AInv dyn A')
    (hf : A.flags = A'.flags) (hv : ∀ c, c < 2 ^ d → ∀ i, A.val c i = A'.val c i) (hB : A.okB = A'.okB) (hD : A.okD = A'.okD)
    (hs : dyn = false → A.minB = A'.minB ∧ A.maxB = A'.maxB) : A = A' := by
  have hal : A.allocated = A'.allocated := by unfold allocated; rw [hf]
  have hb : A.minB = A'.minB ∧ A.maxB = A'.maxB := by
    cases dyn with
    | false => exact hs rfl
    | true =>
      have b1 := h.bounds rfl
      have b2 := h'.bounds rfl
      rw [← hal] at b2
      rcases b1 with ⟨e, b1⟩ | ⟨ne, b1⟩
      · rcases b2 with ⟨_, b2⟩ | ⟨ne, _⟩
        · exact ⟨funext fun a => (b1 a).1.trans (b2 a).1.symm, funext fun a => (b1 a).2.trans (b2 a).2.symm⟩
        · rw [e] at ne; exact absurd ne Set.not_nonempty_empty
      · rcases b2 with ⟨e, _⟩ | ⟨_, b2⟩
        · rw [e] at ne; exact absurd ne Set.not_nonempty_empty
        · exact ⟨funext fun a => (b1 a).1.unique (b2 a).1, funext fun a => (b1 a).2.unique (b2 a).2⟩
  refine Abs.ext hf ?_ hb.1 hb.2 hB hD
  funext c i
  rcases h.content_eq c i with ⟨e1, hc, hx⟩ | ⟨e1, hx⟩
  · rcases h'.content_eq c i with ⟨e2, _⟩ | ⟨e2, hx'⟩
    · rw [e1, e2, hv c hc]
    · exact absurd ⟨hc, by rw [← hal]; exact hx⟩ hx'
  · rcases h'.content_eq c i with ⟨e2, hx'⟩ | ⟨e2, _⟩
    · rw [← hal] at hx'; exact absurd hx' hx
    · rw [e1, e2]

end Abs

section grid
variable {K : Type} [Field K] [LinearOrder K] [FloorRing K] {d : Nat}

/-- accepted points of one call, by bundle index -/
def accList (g : Geo K d) (ok : Idx d → Bool) (pose : Pt K d → Pt K d) (cloud : List (Pt K d)) : List (Pt K d) :=
  (((cloud.map pose).filter (fun p => g.normal p)).map g.toMap).filter (fun p => ok (toBundleIndex g.r p))

/-- accepted points of a history, by bundle index -/
def accOps (g : Geo K d) (ok : Idx d → Bool) : List (GridOp K d) → List (Pt K d)
  | [] => []
  | .insert pose cloud :: l => accList g ok pose cloud ++ accOps g ok l
  | .core _ :: l => accOps g ok l

theorem collect_eq (g : Geo K d) (ok : Idx d → Bool) (pose : Pt K d → Pt K d) (cloud : List (Pt K d)) :
    collect g ok pose cloud = (accList g ok pose cloud).foldl (fun u p => upsert 0 (fun s => s + {p}) (toBundleIndex g.r p) u) [] := by
  unfold collect accList
  generalize ([] : List (Idx d × Multiset (Pt K d))) = u
  induction cloud generalizing u with
  | nil => rfl
  | cons p cloud ih =>
    simp only [List.foldl_cons, List.map_cons]
    rw [ih]
    by_cases h : g.normal (pose p) = true
    · simp only [List.filter_cons, h, if_true, List.map_cons]
      by_cases h' : ok (toBundleIndex g.r (g.toMap (pose p))) = true
      · simp only [h', if_true, List.foldl_cons]
      · simp only [h']; rfl
    · simp only [List.filter_cons, h]; rfl

theorem mem_collect_aux (r : K) (x : Idx d) : ∀ (l : List (Pt K d)) (u : List (Idx d × Multiset (Pt K d))),
    x ∈ (l.foldl (fun u p => upsert 0 (fun s => s + {p}) (toBundleIndex r p) u) u).map Prod.fst ↔
      x ∈ u.map Prod.fst ∨ ∃ p ∈ l, toBundleIndex r p = x
  | [], u => by simp
  | p :: l, u => by
    rw [List.foldl_cons, mem_collect_aux r x l, mem_upsert_keys]
    simp only [List.mem_cons, exists_eq_or_imp]
    constructor
    · rintro ((h | h) | h)
      · exact Or.inr (Or.inl h.symm)
      · exact Or.inl h
      · exact Or.inr (Or.inr h)
    · rintro (h | h | h)
      · exact Or.inl (Or.inr h)
      · exact Or.inl (Or.inl h.symm)
      · exact Or.inr h

theorem sum_collect_aux (r : K) (P : Idx d → Bool) : ∀ (l : List (Pt K d)) (u : List (Idx d × Multiset (Pt K d))),
    (((l.foldl (fun u p => upsert 0 (fun s => s + {p}) (toBundleIndex r p) u) u).filter (fun e => P e.1)).map Prod.snd).sum =
      ((u.filter (fun e => P e.1)).map Prod.snd).sum + ((l.filter (fun p => P (toBundleIndex r p)) : List (Pt K d)) : Multiset (Pt K d))
  | [], u => by simp
  | p :: l, u => by
    rw [List.foldl_cons, sum_collect_aux r P l, sum_upsert]
    by_cases h : P (toBundleIndex r p) = true
    · rw [List.filter_cons, if_pos h, if_pos h, add_assoc]
      refine congrArg (_ + ·) ?_
      rw [← Multiset.cons_coe, Multiset.singleton_add]
    · rw [List.filter_cons, if_neg h, if_neg h, add_zero]

theorem mem_collect_keys (g : Geo K d) (ok : Idx d → Bool) (pose : Pt K d → Pt K d) (cloud : List (Pt K d)) (x : Idx d) :
    x ∈ (collect g ok pose cloud).map Prod.fst ↔ ∃ p ∈ accList g ok pose cloud, toBundleIndex g.r p = x := by
  rw [collect_eq, mem_collect_aux]; simp

theorem sum_collect (g : Geo K d) (ok : Idx d → Bool) (pose : Pt K d → Pt K d) (cloud : List (Pt K d)) (P : Idx d → Bool) :
    (((collect g ok pose cloud).filter (fun e => P e.1)).map Prod.snd).sum =
      (((accList g ok pose cloud).filter (fun p => P (toBundleIndex g.r p)) : List (Pt K d)) : Multiset (Pt K d)) := by
  rw [collect_eq, sum_collect_aux]; simp

open St Abs

variable {B : Backend d}

/-- effect of `insert` -/
theorem gridInsert_spec (L : B.Lawful) (g : Geo K d) (dyn : Bool) (pose : Pt K d → Pt K d) (cloud : List (Pt K d))
    (st st' : St B (Multiset (Pt K d))) (hI : RInv L dyn st) (h : gridInsert g dyn pose cloud st = some st') :
    RInv L dyn st' ∧ Keeps dyn st.abs st'.abs ∧
    (∀ c, c < 2 ^ d → ∀ i, st'.abs.val c i = st.abs.val c i +
      (((accList g (st.abs.valid dyn) pose cloud).filter (fun p => decide (generateIndex (toBundleIndex g.r p) c = i)) : List (Pt K d)) : Multiset (Pt K d))) ∧
    (∀ bj, st'.abs.flags bj =
      if ∃ p ∈ accList g (st.abs.valid dyn) pose cloud, toBundleIndex g.r p = bj then some ((st.abs.flags bj).getD true) else st.abs.flags bj) ∧
    (∀ p ∈ accList g (st.abs.valid dyn) pose cloud, st.abs.Good (toBundleIndex g.r p)) := by
  unfold gridInsert at h
  obtain ⟨h1, h2, h3⟩ := RInv.upds _ st st' hI h
  have hgood := (updateList_refines L dyn _ st hI.inv).2 st' h
  have hgood' : ∀ e ∈ collect g (st.valid dyn) pose cloud, st.abs.Good e.1 := fun e he =>
    hgood (e.1, fun s => s + e.2) (List.mem_map.2 ⟨e, he, rfl⟩)
  have hkeys : ((collect g (st.valid dyn) pose cloud).map fun e => (e.1, fun s => s + e.2)).map Prod.fst =
    (collect g (st.valid dyn) pose cloud).map Prod.fst := by rw [List.map_map]; rfl
  refine ⟨h1, h3, ?_, ?_, ?_⟩
  · intro c hc i
    rw [h2]
    refine (val_upds_add dyn c hc i _ st.abs hI.ainv hI.rng (fun e he => (hgood' e he).1)).trans ?_
    exact congrArg (_ + ·) (sum_collect g _ pose cloud (fun b => decide (generateIndex b c = i)))
  · intro bj
    rw [h2, flags_upds, hkeys]
    have := mem_collect_keys g (st.abs.valid dyn) pose cloud bj
    split
    · rename_i hx
      rw [if_pos (this.1 hx)]
    · rename_i hx
      rw [if_neg (fun y => hx (this.2 y))]
  · intro p hp
    obtain ⟨e, he, hx⟩ := List.mem_map.1 ((mem_collect_keys g (st.abs.valid dyn) pose cloud _).2 ⟨p, hp, rfl⟩)
    rw [← hx]; exact hgood' e he

theorem gridInsert_total (L : B.Lawful) (g : Geo K d) (dyn : Bool) (pose : Pt K d → Pt K d) (cloud : List (Pt K d))
    (st : St B (Multiset (Pt K d))) (hI : RInv L dyn st)
    (hg : ∀ p ∈ accList g (st.abs.valid dyn) pose cloud, st.abs.Good (toBundleIndex g.r p)) :
    ∃ st', gridInsert g dyn pose cloud st = some st' := by
  obtain ⟨s, hs, _⟩ := (updateList_refines L dyn ((collect g (st.valid dyn) pose cloud).map fun e => (e.1, fun s => s + e.2)) st hI.inv).1 (by
    intro e he
    obtain ⟨e', he', rfl⟩ := List.mem_map.1 he
    obtain ⟨p, hp, hx⟩ := (mem_collect_keys g (st.abs.valid dyn) pose cloud e'.1).1 (List.mem_map.2 ⟨e', he', rfl⟩)
    rw [← hx]; exact hg p hp)
  exact ⟨s, hs⟩

/-- effect of a history -/
theorem gridRun_spec (L : B.Lawful) (g : Geo K d) (dyn : Bool) (exp : Multiset (Pt K d) → Bool) : ∀ (ops : List (GridOp K d))
    (st st' : St B (Multiset (Pt K d))), RInv L dyn st → gridRun g dyn exp ops st = some st' →
    RInv L dyn st' ∧ Keeps dyn st.abs st'.abs ∧
    (∀ c, c < 2 ^ d → ∀ i, st'.abs.val c i = st.abs.val c i +
      (((accOps g (st.abs.valid dyn) ops).filter (fun p => decide (generateIndex (toBundleIndex g.r p) c = i)) : List (Pt K d)) : Multiset (Pt K d))) ∧
    (∀ p ∈ accOps g (st.abs.valid dyn) ops, toBundleIndex g.r p ∈ st'.abs.allocated)
  | [], st, st', hI, h => by cases h; exact ⟨hI, .refl .., by simp [accOps], by simp [accOps]⟩
  | op :: ops, st, st', hI, h => by
    simp only [gridRun] at h
    obtain ⟨st1, h1, h2⟩ := Option.bind_eq_some_iff.1 h
    cases op with
    | insert pose cloud =>
      obtain ⟨a1, a2, a3, a4, a5⟩ := gridInsert_spec L g dyn pose cloud st st1 hI h1
      obtain ⟨b1, b2, b3, b4⟩ := gridRun_spec L g dyn exp ops st1 st' a1 h2
      have hv : st1.abs.valid dyn = st.abs.valid dyn := funext a2.valid
      rw [hv] at b3 b4
      refine ⟨b1, a2.trans b2, ?_, ?_⟩
      · intro c hc i
        rw [b3 c hc i, a3 c hc i]
        simp only [accOps, List.filter_append, ← Multiset.coe_add, add_assoc]
      · intro p hp
        simp only [accOps, List.mem_append] at hp
        rcases hp with hp | hp
        · apply b2.allocated
          rw [mem_allocated, a4, if_pos ⟨p, hp, rfl⟩]; rfl
        · exact b4 p hp
    | core op =>
      obtain ⟨a1, a2⟩ := coreStep_spec L dyn exp op st hI st1 h1
      obtain ⟨b1, b2, b3, b4⟩ := gridRun_spec L g dyn exp ops st1 st' a1 h2
      have hv : st1.abs.valid dyn = st.abs.valid dyn := funext a2.valid
      rw [hv] at b3 b4
      refine ⟨b1, a2.keeps.trans b2, ?_, b4⟩
      intro c hc i
      rw [b3 c hc i, a2.val]; rfl

/-- histories stay in contract if all valid indices are covered -/
theorem gridRun_total (L : B.Lawful) (g : Geo K d) (dyn : Bool) (exp : Multiset (Pt K d) → Bool) : ∀ (ops : List (GridOp K d))
    (st : St B (Multiset (Pt K d))), RInv L dyn st → (∀ i, st.abs.valid dyn i = true → st.abs.Good i) →
    ∃ st', gridRun g dyn exp ops st = some st'
  | [], st, _, _ => ⟨st, rfl⟩
  | op :: ops, st, hI, hv => by
    simp only [gridRun]
    cases op with
    | insert pose cloud =>
      obtain ⟨s, hs⟩ := gridInsert_total L g dyn pose cloud st hI (fun p hp => hv _ (by
        unfold accList at hp; exact (List.mem_filter.1 hp).2))
      obtain ⟨a1, a2, _⟩ := gridInsert_spec L g dyn pose cloud st s hI hs
      obtain ⟨s', hs'⟩ := gridRun_total L g dyn exp ops s a1 (fun i h => (a2.good i).2 (hv i (by rw [← a2.valid]; exact h)))
      exact ⟨s', by simp only [gridStep, hs, Option.bind_some, hs']⟩
    | core op =>
      obtain ⟨s, hs⟩ := coreStep_total L dyn exp op st hI hv
      obtain ⟨a1, a2⟩ := coreStep_spec L dyn exp op st hI s hs
      obtain ⟨s', hs'⟩ := gridRun_total L g dyn exp ops s a1 (fun i h => (a2.good i).2 (hv i (by rw [← a2.valid]; exact h)))
      exact ⟨s', by simp only [gridStep, hs, Option.bind_some, hs']⟩

end grid

section accepted
variable {K : Type} [Field K] [LinearOrder K] [IsStrictOrderedRing K] [FloorRing K] {d : Nat}

/-- the model's validity test on bundle indices is membership in the region -/
theorem valid_iff_region (D : Type) [Inhabited D] (r : K) (hr : 0 < r) (k : Kind d) (p : Pt K d) :
    (k.init D).abs.valid k.dyn (toBundleIndex r p) = true ↔ Spec.Region r k p := by
  cases k with
  | dynamic g g' => exact iff_of_true rfl trivial
  | static size lo =>
    show ((Kind.static size lo).init D).abs.valid false _ = true ↔ _
    rw [Kind.static_valid]
    refine forall_congr' fun a => ?_
    unfold toBundleIndex
    rw [bundleResolutionInv_eq, Int.le_floor]
    have e : ∀ z : Int, (⌊p a * (2 / r)⌋ < z ↔ p a < (z : K) * (r / 2)) := by
      intro z
      rw [Int.floor_lt, mul_div_assoc', div_lt_iff₀ hr]
      constructor <;> intro h <;> linarith
    rw [e]
    have e2 : (lo a : K) ≤ p a * (2 / r) ↔ (lo a : K) * (r / 2) ≤ p a := by
      rw [mul_div_assoc', le_div_iff₀ hr]
      constructor <;> intro h <;> linarith
    rw [e2]
    push_cast
    rfl

theorem accList_eq (D : Type) [Inhabited D] (g : Geo K d) (hr : 0 < g.r) (k : Kind d) (pose : Pt K d → Pt K d) (cloud : List (Pt K d)) :
    ((accList g ((k.init D).abs.valid k.dyn) pose cloud : List (Pt K d)) : Multiset (Pt K d)) = Spec.acceptedPoints g k pose cloud := by
  unfold accList Spec.acceptedPoints
  rw [Multiset.filter_coe]
  refine congrArg _ (List.filter_congr fun p _ => ?_)
  rw [Bool.eq_iff_iff]
  refine Iff.trans ?_ (@decide_eq_true_iff _ (Classical.propDecidable _)).symm
  exact valid_iff_region D g.r hr k p

theorem accOps_eq (D : Type) [Inhabited D] (g : Geo K d) (hr : 0 < g.r) (k : Kind d) : ∀ ops : List (GridOp K d),
    ((accOps g ((k.init D).abs.valid k.dyn) ops : List (Pt K d)) : Multiset (Pt K d)) = Spec.accepted g k ops
  | [] => rfl
  | .insert pose cloud :: l => by
    simp only [accOps, Spec.accepted, ← Multiset.coe_add, accList_eq D g hr k, accOps_eq D g hr k l]
  | .core _ :: l => accOps_eq D g hr k l

end accepted
end Ndt
