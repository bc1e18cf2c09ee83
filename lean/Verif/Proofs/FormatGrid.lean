import Verif.Proofs.Format

/-! Lemmas about maps in a format with bounded exponents (C96); as for rounded quantisation without bounds in `Proofs/Rounding.lean`. -/

namespace Ndt
section
variable {K : Type} [Field K] [LinearOrder K] [FloorRing K] {d : Nat}

/-- the index function, 0 where it is undefined -/
def idxF (T : Format) (r : K) (p : Pt K d) : Idx d := (finiteIndexF T r p).getD fun _ => 0

theorem idxF_of_some {T : Format} {r : K} {p : Pt K d} {b : Idx d} (h : finiteIndexF T r p = some b) : idxF T r p = b := by
  unfold idxF; rw [h]; rfl

/-- accepted points of one call -/
def accListF (T : Format) (g : Geo K d) (ok : Idx d → Bool) (pose : Pt K d → Pt K d) (cloud : List (Pt K d)) : List (Pt K d) :=
  (((cloud.map pose).filter (fun p => g.normal p)).map g.toMap).filter (fun p => ok (idxF T g.r p))

/-- accepted points of a history -/
def accOpsF (T : Format) (g : Geo K d) (ok : Idx d → Bool) : List (GridOp K d) → List (Pt K d)
  | [] => []
  | .insert pose cloud :: l => accListF T g ok pose cloud ++ accOpsF T g ok l
  | .core _ :: l => accOpsF T g ok l

theorem collectF_eq (T : Format) (g : Geo K d) (ok : Idx d → Bool) (pose : Pt K d → Pt K d) (u' : List (Idx d × Multiset (Pt K d))) :
    ∀ (cloud : List (Pt K d)) (u : List (Idx d × Multiset (Pt K d))), collectQ (finiteIndexF T g.r) g ok pose cloud u = some u' →
    u' = (accListF T g ok pose cloud).foldl (fun u p => upsert 0 (fun s => s + {p}) (idxF T g.r p) u) u ∧
      ∀ p ∈ cloud, g.normal (pose p) = true → (finiteIndexF T g.r (g.toMap (pose p))).isSome
  | [], u, h => by cases h; exact ⟨rfl, by simp⟩
  | p :: cloud, u, h => by
    unfold collectQ at h
    simp only at h
    by_cases hn : g.normal (pose p) = true
    · rw [if_pos hn] at h
      obtain ⟨bi, hb, h⟩ := Option.bind_eq_some_iff.1 h
      obtain ⟨h1, h2⟩ := collectF_eq T g ok pose u' cloud _ h
      refine ⟨?_, ?_⟩
      · rw [h1]
        unfold accListF
        simp only [List.map_cons, List.filter_cons, hn, if_true, idxF_of_some hb]
        by_cases hok : ok bi = true
        · simp only [hok, if_true, List.foldl_cons, idxF_of_some hb]
        · simp only [hok]; rfl
      · intro q hq hqn
        rcases List.mem_cons.1 hq with rfl | hq
        · rw [hb]; rfl
        · exact h2 q hq hqn
    · rw [if_neg hn] at h
      obtain ⟨h1, h2⟩ := collectF_eq T g ok pose u' cloud _ h
      refine ⟨?_, ?_⟩
      · rw [h1]
        unfold accListF
        simp only [List.map_cons, List.filter_cons, hn]; rfl
      · intro q hq hqn
        rcases List.mem_cons.1 hq with rfl | hq
        · exact absurd hqn hn
        · exact h2 q hq hqn

theorem collectF_total (T : Format) (g : Geo K d) (ok : Idx d → Bool) (pose : Pt K d → Pt K d) :
    ∀ (cloud : List (Pt K d)) (u : List (Idx d × Multiset (Pt K d))),
    (∀ p ∈ cloud, g.normal (pose p) = true → (finiteIndexF T g.r (g.toMap (pose p))).isSome) →
    ∃ u', collectQ (finiteIndexF T g.r) g ok pose cloud u = some u'
  | [], u, _ => ⟨u, rfl⟩
  | p :: cloud, u, h => by
    unfold collectQ
    simp only
    by_cases hn : g.normal (pose p) = true
    · rw [if_pos hn]
      obtain ⟨bi, hb⟩ := Option.isSome_iff_exists.1 (h p (List.mem_cons_self ..) hn)
      rw [hb, Option.bind_some]
      exact collectF_total T g ok pose cloud _ fun q hq => h q (List.mem_cons_of_mem _ hq)
    · rw [if_neg hn]
      exact collectF_total T g ok pose cloud _ fun q hq => h q (List.mem_cons_of_mem _ hq)

open St Abs
variable {B : Backend d}

/-- effect of `insert` in a format -/
theorem gridInsertF_spec (L : B.Lawful) (T : Format) (g : Geo K d) (dyn : Bool) (pose : Pt K d → Pt K d) (cloud : List (Pt K d))
    (st st' : St B (Multiset (Pt K d))) (hI : RInv L dyn st) (h : gridInsertF T g dyn pose cloud st = some st') :
    RInv L dyn st' ∧ Keeps dyn st.abs st'.abs ∧
    (∀ c, c < 2 ^ d → ∀ i, st'.abs.val c i = st.abs.val c i +
      (((accListF T g (st.abs.valid dyn) pose cloud).filter (fun p => decide (generateIndex (idxF T g.r p) c = i)) : List (Pt K d)) : Multiset (Pt K d))) ∧
    (∀ p ∈ accListF T g (st.abs.valid dyn) pose cloud, idxF T g.r p ∈ st'.abs.allocated) ∧
    (∀ p ∈ cloud, g.normal (pose p) = true → (finiteIndexF T g.r (g.toMap (pose p))).isSome) := by
  unfold gridInsertF at h
  obtain ⟨u, hu, h⟩ := Option.bind_eq_some_iff.1 h
  obtain ⟨hu, hdef⟩ := collectF_eq T g _ pose u cloud [] hu
  obtain ⟨h1, h2, h3⟩ := RInv.upds _ st st' hI h
  have hgood := (updateList_refines L dyn _ st hI.inv).2 st' h
  have hgood' : ∀ e ∈ u, st.abs.Good e.1 := fun e he => hgood (e.1, fun s => s + e.2) (List.mem_map.2 ⟨e, he, rfl⟩)
  have hkeys : (u.map fun e => (e.1, fun s : Multiset (Pt K d) => s + e.2)).map Prod.fst = u.map Prod.fst := by rw [List.map_map]; rfl
  refine ⟨h1, h3, ?_, ?_, hdef⟩
  · intro c hc i
    rw [h2]
    refine (val_upds_add dyn c hc i _ st.abs hI.ainv hI.rng (fun e he => (hgood' e he).1)).trans ?_
    refine congrArg (st.abs.val c i + ·) ?_
    rw [hu, sum_foldl_upsert (idxF T g.r) (fun b => decide (generateIndex b c = i))]
    simp only [List.filter_nil, List.map_nil, List.sum_nil, zero_add]
    rfl
  · intro p hp
    rw [mem_allocated, h2, flags_upds, hkeys, if_pos]
    · rfl
    · rw [hu, mem_foldl_upsert]; exact Or.inr ⟨p, hp, rfl⟩

theorem gridInsertF_total (L : B.Lawful) (T : Format) (g : Geo K d) (dyn : Bool) (pose : Pt K d → Pt K d) (cloud : List (Pt K d))
    (st : St B (Multiset (Pt K d))) (hI : RInv L dyn st)
    (hdef : ∀ p ∈ cloud, g.normal (pose p) = true → (finiteIndexF T g.r (g.toMap (pose p))).isSome)
    (hg : ∀ p ∈ accListF T g (st.abs.valid dyn) pose cloud, st.abs.Good (idxF T g.r p)) :
    ∃ st', gridInsertF T g dyn pose cloud st = some st' := by
  obtain ⟨u, hu⟩ := collectF_total T g (st.valid dyn) pose cloud [] hdef
  obtain ⟨hu', _⟩ := collectF_eq T g _ pose u cloud [] hu
  obtain ⟨s, hs, _⟩ := (updateList_refines L dyn (u.map fun e => (e.1, fun s => s + e.2)) st hI.inv).1 (by
    intro e he
    obtain ⟨e', he', rfl⟩ := List.mem_map.1 he
    have : e'.1 ∈ u.map Prod.fst := List.mem_map.2 ⟨e', he', rfl⟩
    rw [hu', mem_foldl_upsert] at this
    rcases this with h | ⟨p, hp, hx⟩
    · simp at h
    · rw [← hx]; exact hg p hp)
  exact ⟨s, by unfold gridInsertF; rw [hu]; exact hs⟩

/-- effect of a history in a format -/
theorem gridRunF_spec (L : B.Lawful) (T : Format) (g : Geo K d) (dyn : Bool) (exp : Multiset (Pt K d) → Bool) : ∀ (ops : List (GridOp K d))
    (st st' : St B (Multiset (Pt K d))), RInv L dyn st → gridRunF T g dyn exp ops st = some st' →
    RInv L dyn st' ∧ Keeps dyn st.abs st'.abs ∧
    (∀ c, c < 2 ^ d → ∀ i, st'.abs.val c i = st.abs.val c i +
      (((accOpsF T g (st.abs.valid dyn) ops).filter (fun p => decide (generateIndex (idxF T g.r p) c = i)) : List (Pt K d)) : Multiset (Pt K d))) ∧
    (∀ p ∈ accOpsF T g (st.abs.valid dyn) ops, idxF T g.r p ∈ st'.abs.allocated ∧ (finiteIndexF T g.r p).isSome)
  | [], st, st', hI, h => by cases h; exact ⟨hI, .refl .., by simp [accOpsF], by simp [accOpsF]⟩
  | op :: ops, st, st', hI, h => by
    simp only [gridRunF] at h
    obtain ⟨st1, h1, h2⟩ := Option.bind_eq_some_iff.1 h
    cases op with
    | insert pose cloud =>
      obtain ⟨a1, a2, a3, a4, a5⟩ := gridInsertF_spec L T g dyn pose cloud st st1 hI h1
      obtain ⟨b1, b2, b3, b4⟩ := gridRunF_spec L T g dyn exp ops st1 st' a1 h2
      have hv : st1.abs.valid dyn = st.abs.valid dyn := funext a2.valid
      rw [hv] at b3 b4
      refine ⟨b1, a2.trans b2, ?_, ?_⟩
      · intro c hc i
        rw [b3 c hc i, a3 c hc i]
        simp only [accOpsF, List.filter_append, ← Multiset.coe_add, add_assoc]
      · intro p hp
        simp only [accOpsF, List.mem_append] at hp
        rcases hp with hp | hp
        · refine ⟨b2.allocated (a4 p hp), ?_⟩
          unfold accListF at hp
          obtain ⟨q, hq, rfl⟩ := List.mem_map.1 (List.mem_filter.1 hp).1
          obtain ⟨hq, hn⟩ := List.mem_filter.1 hq
          obtain ⟨q', hq', rfl⟩ := List.mem_map.1 hq
          exact a5 q' hq' hn
        · exact b4 p hp
    | core op =>
      obtain ⟨a1, a2⟩ := coreStep_spec L dyn exp op st hI st1 h1
      obtain ⟨b1, b2, b3, b4⟩ := gridRunF_spec L T g dyn exp ops st1 st' a1 h2
      have hv : st1.abs.valid dyn = st.abs.valid dyn := funext a2.valid
      rw [hv] at b3 b4
      refine ⟨b1, a2.keeps.trans b2, ?_, b4⟩
      intro c hc i
      rw [b3 c hc i, a2.val]; rfl

open scoped Classical in
theorem accOpsF_eq (T : Format) (g : Geo K d) (k : Kind d) : ∀ ops : List (GridOp K d),
    (∀ p ∈ Spec.offered g ops, (finiteIndexF T g.r p).isSome) →
    ((accOpsF T g ((k.init (Multiset (Pt K d))).abs.valid k.dyn) ops : List (Pt K d)) : Multiset (Pt K d)) =
      (Spec.offered g ops).filter fun p => ∃ b, finiteIndexF T g.r p = some b ∧ Spec.HasBundle k b
  | [], _ => rfl
  | .insert pose cloud :: l, h => by
    simp only [accOpsF, Spec.offered, ← Multiset.coe_add, Multiset.filter_add]
    rw [accOpsF_eq T g k l fun p hp => h p (by simp only [Spec.offered]; exact Multiset.mem_add.2 (Or.inr hp))]
    refine congrArg (· + _) ?_
    unfold accListF
    rw [Multiset.filter_coe]
    refine congrArg _ (List.filter_congr fun p hp => ?_)
    rw [Bool.eq_iff_iff, hasBundle_iff, decide_eq_true_iff]
    obtain ⟨b, hb⟩ := Option.isSome_iff_exists.1 (h p (by simp only [Spec.offered]; exact Multiset.mem_add.2 (Or.inl hp)))
    rw [idxF_of_some hb, hb]
    simp
  | .core _ :: l, h => accOpsF_eq T g k l h

theorem offeredF_defined (L : B.Lawful) (T : Format) (g : Geo K d) (dyn : Bool) (exp : Multiset (Pt K d) → Bool) : ∀ (ops : List (GridOp K d))
    (st st' : St B (Multiset (Pt K d))), RInv L dyn st → gridRunF T g dyn exp ops st = some st' →
    ∀ p ∈ Spec.offered g ops, (finiteIndexF T g.r p).isSome
  | [], _, _, _, _ => by intro p hp; exact absurd hp (Multiset.notMem_zero p)
  | op :: ops, st, st', hI, h => by
    simp only [gridRunF] at h
    obtain ⟨st1, h1, h2⟩ := Option.bind_eq_some_iff.1 h
    cases op with
    | insert pose cloud =>
      obtain ⟨a1, _, _, _, a5⟩ := gridInsertF_spec L T g dyn pose cloud st st1 hI h1
      intro p hp
      simp only [Spec.offered] at hp
      rcases Multiset.mem_add.1 hp with hp | hp
      · obtain ⟨q, hq, rfl⟩ := List.mem_map.1 (Multiset.mem_coe.1 hp)
        obtain ⟨hq, hn⟩ := List.mem_filter.1 hq
        obtain ⟨q', hq', rfl⟩ := List.mem_map.1 hq
        exact a5 q' hq' hn
      · exact offeredF_defined L T g dyn exp ops st1 st' a1 h2 p hp
    | core op =>
      obtain ⟨a1, _⟩ := coreStep_spec L dyn exp op st hI st1 h1
      exact offeredF_defined L T g dyn exp ops st1 st' a1 h2

end
end Ndt
