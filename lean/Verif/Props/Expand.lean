import Verif.Proofs.Expand
import Verif.Props.Gridmap

/-! Property theorems C16–C19 and C51: static maps, neighbourhood allocation, index range of dynamic maps. -/

namespace Ndt
open St

section
variable {K : Type} [Field K] [LinearOrder K] [IsStrictOrderedRing K] [FloorRing K] {d : Nat}

/-! ### C16 -/

omit [IsStrictOrderedRing K] in
/-- **C16.** For every size and every minimum index, no history of operations on a static map accesses one of its arrays outside of the declared size and offset (such an
access is the outcome `none`). -/
theorem C16_static_in_bounds (size : Fin d → Nat) (lo : Idx d) (g : Geo K d) (exp : Multiset (Pt K d) → Bool) (ops : List (GridOp K d)) :
    (gridRun g false exp ops (staticInit d (Multiset (Pt K d)) size lo)).isSome = true := by
  obtain ⟨st, h⟩ := gridRun_total (arrayLawful d) g false exp ops ((Kind.static size lo).init (Multiset (Pt K d))) (Kind.init_rinv (.static size lo))
    (fun i h => Kind.static_good size lo i h)
  exact Option.isSome_iff_exists.2 ⟨st, h⟩

/-- Non-vacuity: an odd negative offset, sizes 3 and 1, and a history that inserts, looks up and expands. The bounds do bite: the storages do not cover the bundle right of the maximum. -/
example : (gridRun sampleGeo false (fun _ => true) sampleOps (staticInit 2 (Multiset (Pt ℚ 2)) ![3, 1] ![-3, 1])).isSome = true ∧
    (update false ![3, 1] id (staticInit 2 (Multiset (Pt ℚ 2)) ![3, 1] ![-3, 1])).isSome = false :=
  ⟨C16_static_in_bounds _ _ _ _ _, by decide⟩

/-! ### C17 -/

/-- the bounds that a static map reports -/
theorem static_getMin_getMax (size : Fin d → Nat) (lo : Idx d) (g : Geo K d) (exp : Multiset (Pt K d) → Bool) (st : St (arrayBackend d) (Multiset (Pt K d)))
    (h : Reachable (.static size lo) g exp st) (a : Fin d) :
    st.getMin g.r a = (lo a : K) * (g.r / 2) ∧ st.getMax g.r a = ((lo a : K) + 2 * (size a : K)) * (g.r / 2) := by
  obtain ⟨h1, h2⟩ := h.keeps.static rfl
  have e1 : st.minB = lo := h1
  have e2 : st.maxB = fun a => lo a + (size a * 2 : Nat) - 1 := h2
  unfold getMin getMax bundleResolution
  rw [e1, e2]
  push_cast
  constructor <;> ring

/-- **C17 (refuted).** On every static map with at least one cell there is a point in `[getMin(), getMax())` that the map does not accept: inserting it does not change the map. -/
theorem C17_static_accepts_refuted (hd : 0 < d) (size : Fin d → Nat) (hs : ∀ a, 0 < size a) (lo : Idx d) (g : Geo K d) (hr : 0 < g.r)
    (exp : Multiset (Pt K d) → Bool) (st : St (arrayBackend d) (Multiset (Pt K d))) (h : Reachable (.static size lo) g exp st) :
    ∃ p : Pt K d, (∀ a, st.getMin g.r a ≤ p a ∧ p a < st.getMax g.r a) ∧
      ∀ (pose : Pt K d → Pt K d) (q : Pt K d), g.toMap (pose q) = p → gridInsert g false pose [q] st = some st := by
  refine ⟨fun a => ((lo a : K) + 2 * (size a : K) - 1) * (g.r / 2), ?_, ?_⟩
  · intro a
    obtain ⟨e1, e2⟩ := static_getMin_getMax size lo g exp st h a
    rw [e1, e2]
    have h1 : (1 : K) ≤ (size a : K) := by exact_mod_cast hs a
    have hr2 : 0 < g.r / 2 := by positivity
    exact ⟨mul_le_mul_of_nonneg_right (by linarith) hr2.le, mul_lt_mul_of_pos_right (by linarith) hr2⟩
  · intro pose q hq
    have hnot : st.valid false (toBundleIndex g.r (g.toMap (pose q))) = false := by
      rw [Bool.eq_false_iff]
      intro hv
      rw [valid_abs] at hv
      have hv' : ((Kind.static size lo).init (Multiset (Pt K d))).abs.valid false (toBundleIndex g.r (g.toMap (pose q))) = true :=
        (h.keeps.valid _).symm.trans hv
      have := (valid_iff_region (Multiset (Pt K d)) g.r hr (.static size lo) (g.toMap (pose q))).1 hv'
      rw [hq] at this
      exact lt_irrefl _ (this ⟨0, hd⟩).2
    unfold gridInsert collect
    simp only [List.foldl_cons, List.foldl_nil, hnot]
    cases g.normal (pose q) <;> rfl

open scoped Classical in
/-- **C17 (partial).** What a static map does accept: a point is accepted iff `getMin() <= p < getMax() - resolution/2`; inserting any other point leaves the map as it is. Missing w.r.t.
C17: the last row of bundles in every dimension. -/
theorem C17_static_accepts_partial (size : Fin d → Nat) (lo : Idx d) (g : Geo K d) (hr : 0 < g.r) (exp : Multiset (Pt K d) → Bool)
    (st : St (arrayBackend d) (Multiset (Pt K d))) (h : Reachable (.static size lo) g exp st) (pose : Pt K d → Pt K d) (q : Pt K d)
    (hn : g.normal (pose q) = true) :
    ((∀ a, st.getMin g.r a ≤ g.toMap (pose q) a ∧ g.toMap (pose q) a < st.getMax g.r a - g.r / 2) →
      ∃ st', gridInsert g false pose [q] st = some st' ∧ ∀ c, c < 2 ^ d → ∀ i, (st'.content c i).getD 0 =
        (st.content c i).getD 0 + (if Spec.InCell g.r c i (g.toMap (pose q)) then {g.toMap (pose q)} else 0)) ∧
    (¬ (∀ a, st.getMin g.r a ≤ g.toMap (pose q) a ∧ g.toMap (pose q) a < st.getMax g.r a - g.r / 2) →
      gridInsert g false pose [q] st = some st) := by
  have hreg : (∀ a, st.getMin g.r a ≤ g.toMap (pose q) a ∧ g.toMap (pose q) a < st.getMax g.r a - g.r / 2) ↔
      st.abs.valid false (toBundleIndex g.r (g.toMap (pose q))) = true := by
    rw [show st.abs.valid false (toBundleIndex g.r (g.toMap (pose q))) =
      ((Kind.static size lo).init (Multiset (Pt K d))).abs.valid false (toBundleIndex g.r (g.toMap (pose q))) from h.keeps.valid _]
    refine Iff.trans ?_ (valid_iff_region (Multiset (Pt K d)) g.r hr (.static size lo) (g.toMap (pose q))).symm
    refine forall_congr' fun a => ?_
    obtain ⟨e1, e2⟩ := static_getMin_getMax size lo g exp st h a
    rw [e1, e2, show ((lo a : K) + 2 * (size a : K)) * (g.r / 2) - g.r / 2 = ((lo a : K) + 2 * (size a : K) - 1) * (g.r / 2) by ring]
  rw [hreg]
  have hI := h.rinv
  constructor
  · intro hv
    have hacc : accList g (st.abs.valid false) pose [q] = [g.toMap (pose q)] := by
      simp [accList, hn, hv]
    obtain ⟨st', hs⟩ := gridInsert_total (arrayLawful d) g false pose [q] st hI (by
      rw [hacc]
      intro p hp
      rw [List.mem_singleton] at hp
      subst hp
      exact (h.keeps.good _).2 (Kind.static_good size lo _ ((h.keeps.valid _).symm.trans hv)))
    refine ⟨st', hs, ?_⟩
    obtain ⟨_, _, a3, _⟩ := gridInsert_spec (arrayLawful d) g false pose [q] st st' hI hs
    intro c hc i
    have := a3 c hc i
    rw [hacc] at this
    refine Eq.trans (show _ = st'.abs.val c i from rfl) (this.trans ?_)
    refine congrArg (st.abs.val c i + ·) ?_
    have e := C01_point_in_selected_cell hr (g.toMap (pose q)) c i
    by_cases x : Spec.InCell g.r c i (g.toMap (pose q))
    · rw [if_pos x, List.filter_cons, if_pos (decide_eq_true (e.2 x))]; rfl
    · rw [if_neg x, List.filter_cons, if_neg (fun y => x (e.1 (of_decide_eq_true y)))]; rfl
  · intro hv
    have hv' : st.valid false (toBundleIndex g.r (g.toMap (pose q))) = false := by
      rw [Bool.eq_false_iff]; exact hv
    unfold gridInsert collect
    simp only [List.foldl_cons, List.foldl_nil, hv', hn]
    rfl

/-- Non-vacuity: a reachable static map. -/
example : ∃ st, Reachable (K := ℚ) (.static ![3, 1] ![-3, 1]) sampleGeo (fun _ => true) st := by
  obtain ⟨st, h⟩ := Option.isSome_iff_exists.1 (C16_static_in_bounds ![3, 1] ![-3, 1] sampleGeo (fun _ => true) sampleOps)
  exact ⟨st, sampleOps, h⟩

/-! ### C18 -/

omit [IsStrictOrderedRing K] in
/-- **C18** (contents): neighbourhood allocation keeps the contents of every distribution; distributions it creates are empty. -/
theorem C18_expand_keeps_contents (k : Kind d) (g : Geo K d) (exp : Multiset (Pt K d) → Bool) (st st' : St k.backend (Multiset (Pt K d)))
    (h : Reachable k g exp st) (h' : allocPartials k.dyn exp st = some st') :
    (∀ c i s, st.content c i = some s → st'.content c i = some s) ∧ (∀ c i s, st'.content c i = some s → s ≠ 0 → st.content c i = some s) ∧
    (∀ c i, (st'.content c i).getD 0 = (st.content c i).getD 0) := by
  obtain ⟨_, hG, _⟩ := allocPartials_flags k.lawful k.dyn exp st st' h.rinv h'
  refine ⟨fun c i s hs => hG.content c i s hs, ?_, fun c i => hG.val c i⟩
  intro c i s hs h0
  have hv : st.abs.val c i = s := by
    rw [← hG.val]; show (st'.content c i).getD _ = s; rw [hs]; rfl
  cases hx : st.content c i with
  | none =>
    have : st.abs.val c i = 0 := by show (st.content c i).getD _ = _; rw [hx]; rfl
    rw [this] at hv; exact absurd hv.symm h0
  | some y =>
    have : st.abs.val c i = y := by show (st.content c i).getD _ = _; rw [hx]; rfl
    rw [← hv, this]

omit [IsStrictOrderedRing K] in
/-- **C18** (what is allocated): a bundle is allocated afterwards iff it was before or it is a valid neighbour of a not yet expanded bundle that contains a valid distribution. In particular
nothing is removed and all valid neighbours of such bundles are allocated. -/
theorem C18_expand_allocates_exactly (k : Kind d) (g : Geo K d) (exp : Multiset (Pt K d) → Bool) (st st' : St k.backend (Multiset (Pt K d)))
    (h : Reachable k g exp st) (h' : allocPartials k.dyn exp st = some st') (bj : Idx d) :
    bj ∈ st'.bundleIndices ↔ bj ∈ st.bundleIndices ∨
      (st.valid k.dyn bj = true ∧ ∃ bi ∈ st.bundleIndices, Spec.Neighbour bi bj ∧ (st.bundle bi).map Bundle.expand = some true ∧
        ∃ c, c < 2 ^ d ∧ ∃ s, st.content c (generateIndex bi c) = some s ∧ exp s = true) := by
  have hI := h.rinv
  obtain ⟨hI', hG, hf⟩ := allocPartials_flags k.lawful k.dyn exp st st' hI h'
  rw [mem_bundleIndices k.lawful st' hI'.inv, ← mem_allocated_iff, Abs.mem_allocated, hf]
  rw [mem_bundleIndices k.lawful st hI.inv bj, ← mem_allocated_iff, Abs.mem_allocated]
  simp only [← trigger_iff]
  constructor
  · intro x
    split at x
    · rename_i ht; left; rw [ht.1]; rfl
    · split at x
      · rename_i hc
        obtain ⟨hv, bi, h1, h2, h3⟩ := hc
        exact Or.inr ⟨hv, bi, h1, h3, h2⟩
      · exact Or.inl x
  · intro x
    split
    · rfl
    · split
      · rfl
      · rename_i hc
        rcases x with x | ⟨hv, bi, h1, h2, h3⟩
        · exact x
        · exact absurd ⟨hv, bi, h1, h3, h2⟩ hc

omit [IsStrictOrderedRing K] in
/-- **C18** (fixpoint): if empty distributions are not valid, then after two calls every further call (without insertions in between) leaves the map exactly as it is. -/
theorem C18_expand_fixpoint (k : Kind d) (g : Geo K d) (exp : Multiset (Pt K d) → Bool) (hexp : exp 0 = false) (s0 s1 s2 : St k.backend (Multiset (Pt K d)))
    (h : Reachable k g exp s0) (h1 : allocPartials k.dyn exp s0 = some s1) (h2 : allocPartials k.dyn exp s1 = some s2) :
    allocPartials k.dyn exp s2 = some s2 :=
  allocPartials_fixpoint k.lawful k.dyn exp hexp s0 s1 s2 h.rinv h1 h2

/-! ### C19 -/

/-- a one-dimensional map with one point in bundle 0 -/
def oneGeo : Geo ℚ 1 := { r := 1, toMap := id, normal := fun _ => true }

def oneExp : Multiset (Pt ℚ 1) → Bool := fun s => decide (1 ≤ Multiset.card s)

theorem one_runs (n : Nat) (hn : n ≤ 2) : ∃ st, gridRun oneGeo true oneExp (.insert id [![1/5]] :: List.replicate n (.core .expandAll))
    ((Kind.dynamic 0 0).init (Multiset (Pt ℚ 1))) = some st := by
  refine dynamic_run_total oneGeo oneExp 0 0 10 _ _ (Kind.init_rinv (.dynamic 0 0)) (.refl ..) ?_ 10 (le_refl _) ?_ ?_
  · intro op hop
    rcases List.mem_cons.1 hop with rfl | hop
    · intro p hp a
      have : p = ![1/5] := by simpa [accList, oneGeo] using hp
      subst this
      fin_cases a
      norm_num [toBundleIndex, bundleResolutionInv, bundleResolution, oneGeo, abs_le]
    · rw [(List.mem_replicate.1 hop).2]; trivial
  · intro bi hbi; rw [Kind.init_allocated] at hbi; exact absurd hbi (Set.notMem_empty _)
  · have : ∀ m, expansions (List.replicate m (GridOp.core CoreOp.expandAll : GridOp ℚ 1)) = m := by
      intro m; induction m with
      | zero => rfl
      | succ m ih => rw [List.replicate_succ]; show expansions _ + 1 = _; rw [ih]
    rw [show expansions (GridOp.insert id [![1/5]] :: List.replicate n (GridOp.core CoreOp.expandAll : GridOp ℚ 1)) = n from this n]
    omega

/-- **C19 (refuted).** There is a reachable map on which a second call of `allocatePartiallyAllocatedBundles` without any insertion in between allocates a further bundle (here: one
point in bundle 0 of a 1D map; the first call allocates bundles -1 and 1, the second one -2). -/
theorem C19_expand_idempotent_refuted :
    ∃ (s0 s1 s2 : St (octreeBackend 1) (Multiset (Pt ℚ 1))), Reachable (.dynamic 0 0) oneGeo oneExp s0 ∧ oneExp 0 = false ∧
      allocPartials true oneExp s0 = some s1 ∧ allocPartials true oneExp s1 = some s2 ∧
      ![-2] ∉ s1.bundleIndices ∧ ![-2] ∈ s2.bundleIndices := by
  obtain ⟨s2, h2⟩ := one_runs 2 (le_refl _)
  simp only [List.replicate, gridRun] at h2
  obtain ⟨s0, h0, h2⟩ := Option.bind_eq_some_iff.1 h2
  obtain ⟨s1, h1, h2⟩ := Option.bind_eq_some_iff.1 h2
  obtain ⟨s2', h2, h3⟩ := Option.bind_eq_some_iff.1 h2
  cases h3
  have R0 : Reachable (.dynamic 0 0) oneGeo oneExp s0 := ⟨[.insert id [![1/5]]], by simp only [gridRun]; exact (congrArg (·.bind some) h0).trans rfl⟩
  have R1 : Reachable (.dynamic 0 0) oneGeo oneExp s1 := R0.step _ h1
  have hidx : toBundleIndex oneGeo.r ![1/5] = ![0] := by
    funext a; fin_cases a; norm_num [toBundleIndex, bundleResolutionInv, bundleResolution, oneGeo]
  obtain ⟨I0, _, v0, f0, _⟩ := gridInsert_spec (octreeLawful 1) oneGeo true id [![1/5]] _ s0 (Kind.init_rinv (.dynamic 0 0)) h0
  have hacc : accList oneGeo (((Kind.dynamic 0 0).init (Multiset (Pt ℚ 1))).abs.valid true) id [![1/5]] = [![1/5]] := by
    simp [accList, oneGeo, Abs.valid]
  rw [hacc] at v0 f0
  have fl : ∀ bj : Idx 1, s0.abs.flags bj = if bj = ![0] then some true else none := by
    intro bj
    rw [f0, Kind.init_flags]
    simp only [List.mem_singleton, exists_eq_left, hidx]
    by_cases e : bj = ![0]
    · rw [if_pos e, if_pos e.symm]; rfl
    · rw [if_neg e, if_neg (fun x => e x.symm)]
  have B0 : ∀ bj, bj ∈ s0.bundleIndices ↔ bj = ![0] := by
    intro bj
    rw [mem_bundleIndices _ s0 R0.rinv.inv, ← mem_allocated_iff, Abs.mem_allocated, fl]
    split <;> simp [*]
  have cont0 : ∀ c, c < 2 → s0.content c (generateIndex ![0] c) = some {![1/5]} := by
    intro c hc
    have hs := (R0.rinv.ainv.used c (generateIndex ![0] c)).2 ⟨by simpa using hc, ![0], by rw [Abs.mem_allocated, fl, if_pos rfl]; rfl, rfl⟩
    obtain ⟨x, hx⟩ := Option.isSome_iff_exists.1 hs
    have hv := v0 c (by simpa using hc) (generateIndex ![0] c)
    have e0 : ((Kind.dynamic 0 0).init (Multiset (Pt ℚ 1))).abs.val c (generateIndex ![0] c) = 0 := by unfold Abs.val; rw [Kind.init_content]; rfl
    rw [e0, zero_add, List.filter_cons, hidx, if_pos (decide_eq_true rfl)] at hv
    unfold Abs.val at hv
    rw [hx] at hv
    refine (show s0.content c _ = some x from hx).trans (congrArg some hv)
  refine ⟨s0, s1, s2, R0, rfl, h1, h2, ?_, ?_⟩
  · rw [C18_expand_allocates_exactly (.dynamic 0 0) oneGeo oneExp s0 s1 R0 h1]
    rintro (x | ⟨_, bi, hb, hn, _⟩)
    · exact absurd ((B0 _).1 x) (by decide)
    · rw [(B0 bi).1 hb] at hn
      exact absurd hn (by decide)
  · rw [C18_expand_allocates_exactly (.dynamic 0 0) oneGeo oneExp s1 s2 R1 h2]
    refine Or.inr ⟨rfl, ![-1], ?_, by decide, ?_, 1, by decide, {![1/5]}, ?_, rfl⟩
    · rw [C18_expand_allocates_exactly (.dynamic 0 0) oneGeo oneExp s0 s1 R0 h1]
      refine Or.inr ⟨rfl, ![0], (B0 _).2 rfl, by decide, ?_, 1, by decide, {![1/5]}, cont0 1 (by decide), rfl⟩
      have := fl ![0]
      rw [if_pos rfl] at this
      exact this
    · obtain ⟨_, _, hf⟩ := allocPartials_flags (octreeLawful 1) true oneExp s0 s1 R0.rinv h1
      have := hf ![-1]
      rw [if_neg (fun t => by have := t.1; rw [fl, if_neg (by decide)] at this; cases this)] at this
      refine (show (s1.bundle ![-1]).map _ = _ from this).trans ?_
      rw [if_pos, fl, if_neg (by decide)]
      · rfl
      · refine ⟨rfl, ![0], (B0 _).2 rfl, (trigger_iff oneExp s0 ![0]).2 ⟨?_, 1, by decide, {![1/5]}, cont0 1 (by decide), rfl⟩, by decide⟩
        have := fl ![0]
        rw [if_pos rfl] at this
        exact this
    · have e : generateIndex (![-1] : Idx 1) 1 = generateIndex ![0] 1 := by decide
      rw [e]
      exact (C18_expand_keeps_contents (.dynamic 0 0) oneGeo oneExp s0 s1 R0 h1).1 _ _ _ (cont0 1 (by decide))

omit [IsStrictOrderedRing K] in
/-- **C19 (partial).** From the third call on nothing changes. Missing w.r.t. C19: the second call (see the refutation). -/
theorem C19_third_call_partial (k : Kind d) (g : Geo K d) (exp : Multiset (Pt K d) → Bool) (hexp : exp 0 = false) (s0 s1 s2 : St k.backend (Multiset (Pt K d)))
    (h : Reachable k g exp s0) (h1 : allocPartials k.dyn exp s0 = some s1) (h2 : allocPartials k.dyn exp s1 = some s2) :
    allocPartials k.dyn exp s2 = some s2 := C18_expand_fixpoint k g exp hexp s0 s1 s2 h h1 h2

/-- Non-vacuity for C18: the maps of the refutation of C19 meet all its hypotheses. -/
example : ∃ s0 s1 s2, Reachable (.dynamic 0 0) oneGeo oneExp s0 ∧ oneExp 0 = false ∧ allocPartials true oneExp s0 = some s1 ∧
    allocPartials true oneExp s1 = some s2 := by
  obtain ⟨s0, s1, s2, h1, h2, h3, h4, _⟩ := C19_expand_idempotent_refuted
  exact ⟨s0, s1, s2, h1, h2, h3, h4⟩

/-! ### C51 -/

omit [IsStrictOrderedRing K] in
/-- **C51.** A history on a dynamic map whose insertions and lookups only concern bundle indices with coordinates in `[-n, n]` and which contains `e` expansion calls stays within the index
range of the octree (hence all other theorems apply) whenever `n + e ≤ 32767`. -/
theorem C51_dynamic_in_range (g' : Nat → Nat) (g'' : Nat) (g : Geo K d) (exp : Multiset (Pt K d) → Bool) (n : Nat) (ops : List (GridOp K d))
    (hops : ∀ op ∈ ops, OpWithin g n op) (hn : n + expansions ops ≤ 32767) :
    ∃ st, gridRun g true exp ops (dynInit d (Multiset (Pt K d)) g' g'') = some st := by
  refine dynamic_run_total g exp g' g'' n ops _ (Kind.init_rinv (.dynamic g' g'')) (.refl ..) hops n (le_refl _) ?_ (by exact_mod_cast hn)
  intro bi hbi
  exact absurd (Kind.init_allocated (D := Multiset (Pt K d)) (.dynamic g' g'') ▸ hbi : bi ∈ (∅ : Set (Idx d))) (Set.notMem_empty _)

/-- Non-vacuity: the one-point history with two expansions satisfies the hypotheses with `n = 10`. -/
example : ∃ st, gridRun oneGeo true oneExp [.insert id [![1/5]], .core .expandAll, .core .expandAll] (dynInit 1 (Multiset (Pt ℚ 1)) 0 0) = some st :=
  one_runs 2 (le_refl _)

end
end Ndt
