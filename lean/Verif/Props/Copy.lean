import Verif.Proofs.Copy
import Verif.Props.Expand

/-! Property theorems C20: copies of maps. -/

namespace Ndt
open St

section
variable {d : Nat} {D : Type}

theorem run_shares {B : Backend d} {Op : Type} (f : Op → St B D → Option (St B D)) : ∀ (hist : List (Bool × Op))
    (T T' : Twin B D), T.runWith f hist = some T' → T'.shareS = T.shareS ∧ T'.shareB = T.shareB
  | [], T, T', h => by cases h; exact ⟨rfl, rfl⟩
  | (o, op) :: l, T, T', h => by
    obtain ⟨T1, h1, h2⟩ := Option.bind_eq_some_iff.1 h
    obtain ⟨x, y⟩ := run_shares f l T1 T' h2
    have : T1.shareS = T.shareS ∧ T1.shareB = T.shareB := by
      cases o <;> (obtain ⟨s, _, rfl⟩ := Option.map_eq_some_iff.1 h1; exact ⟨rfl, rfl⟩)
    exact ⟨x.trans this.1, y.trans this.2⟩

/-- A new copy cannot be told apart from the original (dynamic maps of any class). -/
theorem C20_copy_equal_dynamic_partial (st : St (octreeBackend d) D) : (copyDynamic st).viewO = st ∧ (copyDynamic st).viewC = st := by
  refine ⟨rfl, ?_⟩
  unfold copyDynamic Twin.viewC
  cases st
  simp only [ite_self]

theorem copy_aliases [Inhabited D] {Op : Type} (f : Op → St (octreeBackend d) D → Option (St (octreeBackend d) D)) (st : St (octreeBackend d) D) (hI : Inv (octreeLawful d) st)
    (hne : st.bundleIndices ≠ []) (hist : List (Bool × Op)) (T : Twin (octreeBackend d) D) (h : (copyDynamic st).runWith f hist = some T) :
    (∀ c, c < 2 ^ d → ∀ i, T.viewO.content c i = T.viewC.content c i) ∧ (∀ bi, T.viewO.bundle bi = T.viewC.bundle bi) := by
  obtain ⟨bi, l, hl⟩ := List.exists_cons_of_ne_nil hne
  have hbi : bi ∈ st.abs.allocated := by
    rw [mem_allocated_iff, ← mem_bundleIndices _ st hI, hl]; exact List.mem_cons_self ..
  obtain ⟨r1, r2⟩ := roots_of_nonempty _ st hI bi hbi
  obtain ⟨s1, s2⟩ := run_shares f hist _ T h
  constructor
  · intro c hc i
    unfold St.content dist
    have : T.viewC.storage c = T.viewO.storage c := by
      show (if T.shareS c then _ else _) = _
      rw [s1]; exact if_pos (r2 c hc)
    rw [this]; rfl
  · intro b
    unfold bundle
    have : T.viewC.bundles = T.viewO.bundles := by
      show (if T.shareB then _ else _) = _
      rw [s2]; exact if_pos r1
    rw [this]

end

section
variable {K : Type} [Field K] [LinearOrder K] [IsStrictOrderedRing K] [FloorRing K] {d : Nat}

omit [IsStrictOrderedRing K] in
/-- **C20 (refuted, dynamic maps).** The copy of a dynamic map with at least one bundle never becomes independent: after any history of operations on the two objects, both
have the same bundles and the same contents. -/
theorem C20_dynamic_copy_aliases_refuted (g : Geo K d) (exp : Multiset (Pt K d) → Bool) (gs : Nat → Nat) (gb : Nat) (st : St (octreeBackend d) (Multiset (Pt K d)))
    (hst : Reachable (.dynamic gs gb) g exp st) (hne : st.bundleIndices ≠ []) (hist : List (Bool × GridOp K d)) (T : Twin (octreeBackend d) (Multiset (Pt K d)))
    (h : (copyDynamic st).run g true exp hist = some T) :
    (∀ c, c < 2 ^ d → ∀ i, T.viewO.content c i = T.viewC.content c i) ∧ (∀ bi, T.viewO.bundle bi = T.viewC.bundle bi) :=
  copy_aliases _ st hst.rinv.inv hne hist T h

/-- **C20 (refuted, dynamic maps).** A point inserted into the copy of a dynamic map with at least one bundle appears in the original, in every overlapping grid, while the original's bounds stay
as they were. -/
theorem C20_copy_independent_refuted (g : Geo K d) (hr : 0 < g.r) (exp : Multiset (Pt K d) → Bool) (gs : Nat → Nat) (gb : Nat)
    (st : St (octreeBackend d) (Multiset (Pt K d))) (hst : Reachable (.dynamic gs gb) g exp st) (hne : st.bundleIndices ≠ [])
    (pose : Pt K d → Pt K d) (q : Pt K d) (hn : g.normal (pose q) = true) (T : Twin (octreeBackend d) (Multiset (Pt K d)))
    (h : (copyDynamic st).run g true exp [(true, .insert pose [q])] = some T) (c : Nat) (hc : c < 2 ^ d) (i : Idx d)
    (hi : Spec.InCell g.r c i (g.toMap (pose q))) :
    (T.viewO.content c i).getD 0 = (st.content c i).getD 0 + {g.toMap (pose q)} ∧ T.viewO.content c i ≠ st.content c i ∧
      T.viewO.minB = st.minB ∧ T.viewO.maxB = st.maxB := by
  have hal := (C20_dynamic_copy_aliases_refuted g exp gs gb st hst hne _ T h).1 c hc i
  simp only [Twin.run, Twin.runWith] at h
  obtain ⟨T1, h1, h2⟩ := Option.bind_eq_some_iff.1 h
  cases h2
  obtain ⟨s, hs, rfl⟩ := Option.map_eq_some_iff.1 h1
  rw [(C20_copy_equal_dynamic_partial st).2] at hs
  obtain ⟨_, _, a3, _⟩ := gridInsert_spec (octreeLawful d) g true pose [q] st s hst.rinv hs
  have hv := a3 c hc i
  have hacc : accList g (st.abs.valid true) pose [q] = [g.toMap (pose q)] := by
    simp [accList, hn, Abs.valid]
  rw [hacc, List.filter_cons, if_pos (decide_eq_true ((C01_point_in_selected_cell hr _ c i).2 hi))] at hv
  rw [hal, viewC_putC]
  have e : (s.content c i).getD 0 = (st.content c i).getD 0 + {g.toMap (pose q)} := hv
  refine ⟨e, ?_, rfl, rfl⟩
  intro e'
  rw [e'] at e
  have := congrArg Multiset.card e
  rw [Multiset.card_add, Multiset.card_singleton] at this
  omega

/-- Non-vacuity: a reachable dynamic map with a bundle, whose copy accepts a point. -/
example : ∃ st T, Reachable (.dynamic 0 0) oneGeo oneExp st ∧ st.bundleIndices ≠ [] ∧
    (copyDynamic st).run oneGeo true oneExp [(true, .insert id [![1/5]])] = some T := by
  obtain ⟨s0, s1, s2, h1, _, h2, h3, _, hmem⟩ := C19_expand_idempotent_refuted
  have hst : Reachable (.dynamic 0 0) oneGeo oneExp s2 := (h1.step (.core .expandAll) h2).step (.core .expandAll) h3
  have hbi : toBundleIndex oneGeo.r ![1/5] = ![0] := by
    funext a; fin_cases a; norm_num [toBundleIndex, bundleResolutionInv, bundleResolution, oneGeo]
  obtain ⟨s, hs⟩ := gridInsert_total (octreeLawful 1) oneGeo true id [![1/5]] s2 hst.rinv (by
    intro p hp
    have : p = ![1/5] := by simpa [accList, oneGeo, Abs.valid] using hp
    subst this
    rw [hbi]
    exact (hst.keeps.good _).2 (dynamic_good _ 0 0 _ (by decide)))
  refine ⟨s2, (copyDynamic s2).putC s, hst, ?_, ?_⟩
  · intro h
    have : (![-2] : Idx 1) ∈ s2.bundleIndices := hmem
    rw [h] at this; cases this
  · simp only [Twin.run, Twin.runWith, Twin.stepWith, (C20_copy_equal_dynamic_partial s2).2]
    have : gridStep oneGeo true oneExp (.insert id [![1/5]]) s2 = some s := hs
    rw [this]; rfl

/-- **C20 (refuted, static maps).** A point inserted through the copy into a bundle that was allocated before copying ends up in the original's distributions, and not in those of the copy. -/
theorem C20_static_copy_independent_refuted (g : Geo K d) (exp : Multiset (Pt K d) → Bool) (size : Fin d → Nat) (lo : Idx d)
    (st : St (arrayBackend d) (Multiset (Pt K d))) (hst : Reachable (.static size lo) g exp st)
    (pose : Pt K d → Pt K d) (q : Pt K d) (hn : g.normal (pose q) = true) (bi : Idx d) (hq : toBundleIndex g.r (g.toMap (pose q)) = bi)
    (hv : st.valid false bi = true) (hbi : bi ∈ st.bundleIndices) :
    ∃ T, (copyStatic st).run g false exp [(true, .insert pose [q])] = some T ∧
      (∀ c, c < 2 ^ d → ∀ s, st.content c (generateIndex bi c) = some s →
        T.viewO.content c (generateIndex bi c) = some (s + {g.toMap (pose q)}) ∧ T.viewC.content c (generateIndex bi c) = some s) := by
  have hI : Inv (arrayLawful d) st := hst.rinv.inv
  obtain ⟨b, hb⟩ := Option.isSome_iff_exists.1 ((mem_bundleIndices _ st hI bi).1 hbi)
  obtain ⟨x1, x2, _, x4⟩ := dupStorages_spec st hI.fresh (2 ^ d) st.heap st.next st.storage (le_refl _) (fun _ _ => rfl)
  have hV : (copyStatic st).viewC.bundle bi = some b := hb
  have hok : (arrayBackend d).ok (copyStatic st).viewC.bundles bi = true := by
    unfold bundle Backend.look at hV
    split at hV
    · assumption
    · cases hV
  have hget : (arrayBackend d).get (copyStatic st).viewC.bundles bi = some b := by
    unfold bundle Backend.look at hV
    rw [if_pos hok] at hV; exact hV
  have hdata : ∀ c ∈ List.range (2 ^ d), ∃ a, b.data c = some a ∧ st.dist c (generateIndex bi c) = some a := fun c hc =>
    hI.complete bi b hb c (List.mem_range.1 hc)
  obtain ⟨s', y1, y2, y3, y4, y5, y6, y7, y8⟩ := applyBins_spec (fun s => s + {g.toMap (pose q)}) b (List.range (2 ^ d)) (copyStatic st).viewC
    List.nodup_range
    (fun c hc => by obtain ⟨a, e, _⟩ := hdata c hc; rw [e]; rfl)
    (fun c hc c' hc' e => by
      obtain ⟨a, e1, e2⟩ := hdata c hc
      obtain ⟨a', e1', e2'⟩ := hdata c' hc'
      rw [e1, e1'] at e; cases e
      exact (hI.inj _ _ _ _ a e2 e2').1)
  have hrun : gridStep g false exp (.insert pose [q]) (copyStatic st).viewC = some s' := by
    have hcol : collect g ((copyStatic st).viewC.valid false) pose [q] = [(bi, 0 + {g.toMap (pose q)})] := by
      unfold collect
      simp only [List.foldl_cons, List.foldl_nil, hn, if_true, hq]
      rw [if_pos (show (copyStatic st).viewC.valid false bi = true from hv)]
      rfl
    show gridInsert g false pose [q] (copyStatic st).viewC = some s'
    unfold gridInsert
    rw [hcol, zero_add]
    have hga : getAllocate false bi (copyStatic st).viewC = some (b, (copyStatic st).viewC) := by
      unfold getAllocate; rw [if_pos hok, hget]
    simp only [List.map_cons, List.map_nil, updateList, update, hga, twoPow_eq]
    rw [y1]; rfl
  refine ⟨(copyStatic st).putC s', by simp only [Twin.run, Twin.runWith, Twin.stepWith, hrun]; rfl, ?_⟩
  intro c hc s hs
  unfold St.content at hs
  obtain ⟨a, ha, hs⟩ := Option.map_eq_some_iff.1 hs
  obtain ⟨a0, e1, e2⟩ := hdata c (List.mem_range.2 hc)
  rw [ha] at e2; cases e2
  constructor
  · show (st.dist c (generateIndex bi c)).map s'.heap = _
    rw [ha]
    show some (s'.heap a) = _
    rw [y7 c (List.mem_range.2 hc) a e1]
    have : (copyStatic st).viewC.heap a = st.heap a := x2 a (hI.fresh _ _ _ ha)
    rw [this, hs]
  · rw [viewC_putC]
    show ((arrayBackend d).look (s'.storage c) (generateIndex bi c)).map s'.heap = _
    rw [y3]
    rcases x4 c hc (generateIndex bi c) with ⟨_, z⟩ | ⟨a1, a1', z1, z2, z3, z4, z5⟩
    · rw [ha] at z; cases z
    · rw [ha] at z2; cases z2
      have : (arrayBackend d).look ((copyStatic st).viewC.storage c) (generateIndex bi c) = some a1' := z1
      rw [this]
      show some (s'.heap a1') = _
      rw [y8 a1' (by
        intro c' hc' e
        obtain ⟨a2, w1, w2⟩ := hdata c' hc'
        rw [w1] at e; cases e
        have := hI.fresh _ _ _ w2
        omega)]
      exact congrArg some (z5.trans hs)

/-- Non-vacuity: a reachable static map with an allocated, valid bundle that contains a point. -/
example : ∃ st, Reachable (.static ![2] ![0]) oneGeo oneExp st ∧ st.valid false (toBundleIndex oneGeo.r ![1/5]) = true ∧
    toBundleIndex oneGeo.r ![1/5] ∈ st.bundleIndices := by
  obtain ⟨st, h⟩ := Option.isSome_iff_exists.1 (C16_static_in_bounds ![2] ![0] oneGeo oneExp [.insert id [![1/5]]])
  have hst : Reachable (.static ![2] ![0]) oneGeo oneExp st := ⟨_, h⟩
  have hbi : toBundleIndex oneGeo.r ![1/5] = ![0] := by
    funext a; fin_cases a; norm_num [toBundleIndex, bundleResolutionInv, bundleResolution, oneGeo]
  have hv0 : ((Kind.static ![2] ![0]).init (Multiset (Pt ℚ 1))).abs.valid false ![0] = true := by
    rw [Kind.static_valid]; decide
  refine ⟨st, hst, ?_, ?_⟩
  · rw [hbi]
    exact (hst.keeps.valid _).trans hv0
  · rw [mem_bundleIndices _ st hst.rinv.inv, ← mem_allocated_iff]
    refine (gridRun_spec (arrayLawful 1) oneGeo false oneExp _ _ st (Kind.init_rinv (.static ![2] ![0])) h).2.2.2 ![1/5] ?_
    have : ((Kind.static ![2] ![0]).init (Multiset (Pt ℚ 1))).abs.valid false (toBundleIndex oneGeo.r ![1/5]) = true := by rw [hbi]; exact hv0
    have hd : oneGeo.toMap = id := rfl
    simp only [accOps, accList, List.map_cons, List.map_nil, List.append_nil, hd, id]
    rw [List.filter_cons, if_pos (show oneGeo.normal ![1/5] = true from rfl)]
    simp only [List.filter_nil, List.map_cons, List.map_nil, id]
    rw [List.filter_cons, if_pos this]
    exact List.mem_cons_self ..

/-- The copies of maps without bundles share nothing with the original. -/
theorem apart_copy_empty {D : Type} [Inhabited D] (k : Kind d) {Op : Type} (f : Op → St k.backend D → Option (St k.backend D))
    (hf : ∀ op st st', RInv k.lawful k.dyn st → f op st = some st' → Frame st st' ∧ RInv k.lawful k.dyn st') (hist : List (Bool × Op)) (T : Twin k.backend D)
    (h : (copyNew D k).runWith f hist = some T) :
    Apart k.lawful k.dyn T := by
  have run_apart : ∀ {B : Backend d} (L : B.Lawful) (dyn : Bool) (f : Op → St B D → Option (St B D)) (_ : ∀ op st st', RInv L dyn st → f op st = some st' → Frame st st' ∧ RInv L dyn st')
      (hist : List (Bool × Op)) (T T' : Twin B D), Apart L dyn T → T.runWith f hist = some T' → Apart L dyn T' := by
    intro B L dyn f hf hist
    induction hist with
    | nil => intro T T' hA h; cases h; exact hA
    | cons op l ih =>
      intro T T' hA h
      obtain ⟨T1, h1, h2⟩ := Option.bind_eq_some_iff.1 h
      exact ih T1 T' (apart_step L dyn f hf op T T1 hA h1).1 h2
  cases k with
  | dynamic gs gb =>
    refine run_apart _ _ f hf hist _ T ⟨fun _ => rfl, rfl, Kind.init_rinv (.dynamic gs gb), ?_, ?_⟩ h
    · show RInv _ _ (copyDynamic _).viewC
      rw [(C20_copy_equal_dynamic_partial _).2]; exact Kind.init_rinv (.dynamic gs gb)
    · intro c i c' i' a h1
      have := Kind.init_dist (D := D) (.dynamic gs gb) c i
      rw [show (copyNew D (.dynamic gs gb)).viewO.dist c i = none from this] at h1
      cases h1
  | static size lo =>
    have hcopy : (copyStatic (staticInit d D size lo)).viewC = staticInit d D size lo := by
      have htr : ∀ c, (arrayBackend d).traverse ((staticInit d D size lo).storage c) = [] := by
        intro c
        refine List.eq_nil_iff_forall_not_mem.2 ?_
        intro e he
        have := ((arrayLawful d).mem_traverse _ trivial e.1 e.2).1 he
        have h0 := Kind.init_dist (D := D) (.static size lo) c e.1
        rw [show (arrayBackend d).look ((staticInit d D size lo).storage c) e.1 = none from h0] at this
        cases this
      have hcl : ∀ c, ({ (staticInit d D size lo).storage c with cells := fun _ => none } : Arr d Nat) =
          (staticInit d D size lo).storage c := by
        intro c; unfold staticInit Arr.fresh; simp only; split <;> rfl
      have hdup : ∀ m (x : (Nat → D) × Nat × (Nat → Arr d Nat)), x.2.2 = (staticInit d D size lo).storage →
          dupStorages (staticInit d D size lo).storage m x = x := by
        intro m
        induction m with
        | zero => intro x _; rfl
        | succ m ih =>
          rintro ⟨h, n, S⟩ hS
          simp only at hS
          subst hS
          have e1 : dupCells ((arrayBackend d).traverse ((staticInit d D size lo).storage m))
              (h, n, { (staticInit d D size lo).storage m with cells := fun _ => none }) =
              (h, n, (staticInit d D size lo).storage m) := by rw [htr, hcl]; rfl
          unfold dupStorages
          simp only [e1, Function.update_eq_self]
          exact ih (h, n, (staticInit d D size lo).storage) rfl
      unfold copyStatic Twin.viewC
      rw [show dupStorages (staticInit d D size lo).storage (2 ^ d) ((staticInit d D size lo).heap,
        (staticInit d D size lo).next, (staticInit d D size lo).storage) = _ from hdup _ (_, _, _) rfl]
      rfl
    refine run_apart _ _ f hf hist _ T ⟨fun _ => rfl, rfl, ?_, ?_, ?_⟩ h
    · have : (copyStatic (staticInit d D size lo)).viewO = staticInit d D size lo := by
        have e := hcopy
        have h1 := congrArg St.heap e
        have h2 := congrArg St.next e
        unfold Twin.viewO
        rw [show (copyStatic (staticInit d D size lo)).heap = _ from h1, show (copyStatic (staticInit d D size lo)).next = _ from h2]
        rfl
      show RInv _ _ (copyStatic _).viewO
      rw [this]; exact Kind.init_rinv (.static size lo)
    · show RInv _ _ (copyStatic _).viewC
      rw [hcopy]; exact Kind.init_rinv (.static size lo)
    · intro c i c' i' a h1
      have := Kind.init_dist (D := D) (.static size lo) c i
      rw [show (copyNew D (.static size lo)).viewO.dist c i = none from this] at h1
      cases h1

omit [IsStrictOrderedRing K] in
/-- **C20 (partial).** The copy of a *newly constructed* map is independent of the original: after any history on both objects, an operation on one of them leaves the
other unchanged. Missing w.r.t. C20: copies of maps that contain bundles (see the refutations). -/
theorem C20_copy_of_new_independent_partial (k : Kind d) (g : Geo K d) (exp : Multiset (Pt K d) → Bool) (hist : List (Bool × GridOp K d))
    (T T' : Twin k.backend (Multiset (Pt K d)))
    (h : (copyNew (Multiset (Pt K d)) k).run g k.dyn exp hist = some T)
    (op : GridOp K d) :
    (T.step g k.dyn exp (true, op) = some T' → SameMap T'.viewO T.viewO) ∧ (T.step g k.dyn exp (false, op) = some T' → SameMap T'.viewC T.viewC) := by
  have hf : ∀ op st st', RInv k.lawful k.dyn st → gridStep g k.dyn exp op st = some st' → Frame st st' ∧ RInv k.lawful k.dyn st' := fun op st st' hI h =>
    ⟨frame_gridStep k.lawful g k.dyn exp op st st' hI h, gridStep_rinv k.lawful g k.dyn exp op st st' hI h⟩
  have hA := apart_copy_empty k _ hf hist T h
  constructor
  · intro hs
    exact SameMap.of_abs ((apart_step k.lawful k.dyn _ hf (true, op) T T' hA hs).2.1 rfl).1
  · intro hs
    exact SameMap.of_abs ((apart_step k.lawful k.dyn _ hf (false, op) T T' hA hs).2.2 rfl).1

/-- Non-vacuity: the empty history is one, and the copy then accepts a point. -/
example : ∃ T', (copyNew (Multiset (Pt ℚ 1)) (.dynamic 0 0)).step oneGeo true oneExp (true, .insert id [![1/5]]) = some T' := by
  obtain ⟨st, h⟩ := one_runs 0 (by omega)
  simp only [List.replicate, gridRun] at h
  obtain ⟨s, h1, h2⟩ := Option.bind_eq_some_iff.1 h
  refine ⟨(copyDynamic (dynInit 1 (Multiset (Pt ℚ 1)) 0 0)).putC s, ?_⟩
  simp only [Twin.step, Twin.stepWith, (C20_copy_equal_dynamic_partial _).2]
  exact (congrArg (Option.map _) h1).trans rfl

end
end Ndt
