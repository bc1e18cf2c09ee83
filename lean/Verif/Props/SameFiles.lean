import Verif.Props.SerialMore
import Verif.Props.Later

/-! Property theorems C82: the files of a saved map are determined by its contents. -/

namespace Ndt
open St

/-! ### Storages visit their entries in an order that depends on the indices only -/

theorem lexLt_asymm : ∀ {d : Nat} (i j : Idx d), lexLt i j = true → lexLt j i = true → False
  | 0, _, _, h, _ => by simp [lexLt] at h
  | d + 1, i, j, h, h' => by
    simp only [lexLt, Bool.or_eq_true, decide_eq_true_eq, Bool.and_eq_true] at h h'
    rcases h with h | ⟨h1, h2⟩
    · rcases h' with h' | ⟨h1', _⟩ <;> omega
    · rcases h' with h' | ⟨_, h2'⟩
      · omega
      · exact lexLt_asymm _ _ h2 h2'

theorem boxList_sorted : ∀ {d : Nat} (lo : Idx d) (sz : Fin d → Nat), (boxList lo sz).Pairwise fun i j => lexLt i j = true
  | 0, _, _ => by simp [boxList]
  | d + 1, lo, sz => by
    unfold boxList
    rw [List.pairwise_flatMap]
    refine ⟨?_, ?_⟩
    · intro k _
      rw [List.pairwise_map]
      refine (boxList_sorted _ _).imp ?_
      intro a b hab
      simp only [lexLt, Bool.or_eq_true, Bool.and_eq_true, decide_eq_true_eq, Fin.cons_zero, Fin.cons_succ]
      exact Or.inr ⟨trivial, hab⟩
    · refine List.pairwise_lt_range.imp ?_
      intro k l hkl x hx y hy
      obtain ⟨u, _, rfl⟩ := List.mem_map.1 hx
      obtain ⟨v, _, rfl⟩ := List.mem_map.1 hy
      simp only [lexLt, Bool.or_eq_true, decide_eq_true_eq, Fin.cons_zero]
      left; omega

/-- A backend visits the entries of every storage in the order `lt` of their indices. -/
structure Backend.Ordered {d : Nat} {B : Backend d} (L : B.Lawful) (lt : Idx d → Idx d → Prop) : Prop where
  sorted : ∀ {V : Type} (s : B.Store V), L.Inv s → (B.traverse s).Pairwise fun a b => lt a.1 b.1
  asymm : ∀ i j, lt i j → lt j i → False

theorem octree_ordered (d : Nat) : Backend.Ordered (octreeLawful d) (Octree.PathLt Octree.treeDepth) :=
  ⟨fun s hs => Octree.TInv.sorted s hs, fun _ _ h h' => Octree.pathLt_asymm _ _ _ h h'⟩

theorem array_ordered (d : Nat) : Backend.Ordered (arrayLawful d) (fun i j => lexLt i j = true) := by
  refine ⟨?_, fun i j => lexLt_asymm i j⟩
  intro V s _
  change ((boxList s.offset s.size).filterMap (fun i => (s.cells i).map (fun v => (i, v)))).Pairwise _
  rw [List.pairwise_filterMap]
  refine (boxList_sorted _ _).imp ?_
  intro a b hab x hx y hy
  obtain ⟨_, _, rfl⟩ := Option.map_eq_some_iff.1 hx
  obtain ⟨_, _, rfl⟩ := Option.map_eq_some_iff.1 hy
  exact hab

section
variable {d : Nat} {B : Backend d} {L : B.Lawful} {lt : Idx d → Idx d → Prop} {D : Type} [Inhabited D]

theorem records_ext (O : Backend.Ordered L lt) (st st' : St B D) (hI : Inv L st) (hI' : Inv L st') (c : Nat) (h : ∀ k, st.content c k = st'.content c k) : records st c = records st' c := by
  have hp : (records st c).Perm (records st' c) := by
    refine (List.perm_ext_iff_of_nodup (List.Nodup.of_map _ (nodup_records L st hI c)) (List.Nodup.of_map _ (nodup_records L st' hI' c))).2 ?_
    rintro ⟨k, x⟩
    rw [mem_records L st hI, mem_records L st' hI', h]
  have hs : ∀ (s : St B D), Inv L s → (records s c).Pairwise fun a b => lt a.1 b.1 := by
    intro s hs
    unfold records
    rw [List.pairwise_map]
    exact O.sorted _ (hs.store c)
  exact List.Perm.eq_of_pairwise (fun a b _ _ hab hba => (O.asymm _ _ hab hba).elim) (hs st hI) (hs st' hI') hp

theorem bundleIndices_ext (O : Backend.Ordered L lt) (st st' : St B D) (hI : Inv L st) (hI' : Inv L st') (h : ∀ bi, bi ∈ st.bundleIndices ↔ bi ∈ st'.bundleIndices) :
    st.bundleIndices = st'.bundleIndices := by
  have hs : ∀ (s : St B D), Inv L s → s.bundleIndices.Pairwise lt := by
    intro s hs
    unfold bundleIndices
    rw [List.pairwise_map]
    exact O.sorted _ hs.bstore
  have hn : ∀ (s : St B D), Inv L s → s.bundleIndices.Nodup := fun s hs => L.nodup_traverse _ hs.bstore
  exact List.Perm.eq_of_pairwise (fun a b _ _ hab hba => (O.asymm _ _ hab hba).elim) (hs st hI) (hs st' hI') ((List.perm_ext_iff_of_nodup (hn st hI) (hn st' hI')).2 h)

end

/-- Equal bytes give equal directories, whatever was there before and however the writes of the threads interleave. -/
theorem SaveTrace.run_unique {d : Nat} {old old' : Option Dir} {hb : Bytes} {sb sb' : Nat → Bytes} (t : SaveTrace d old hb sb) (t' : SaveTrace d old' hb sb')
    (h : ∀ c, c < 2 ^ d → sb c = sb' c) : runEffs old t.effects = runEffs old' t'.effects := by
  have key : ∀ {old : Option Dir} {sb : Nat → Bytes} (t : SaveTrace d old hb sb), runEffs old t.effects = some fun f => (t.threads.map Prod.snd).foldl (fileEff f) (headDir hb f) := by
    intro old sb t
    unfold SaveTrace.effects
    rw [runEffs_append, runEffs_append, t.run_removal, t.run_header]
    refine runEffs_inside _ _ ?_
    intro e he
    obtain ⟨x, hx, rfl⟩ := List.mem_map.1 he
    rcases t.thread_eff x hx with h | ⟨bs, h⟩ <;> rw [h] <;> trivial
  have big : ∀ {old : Option Dir} {sb : Nat → Bytes} (t : SaveTrace d old hb sb) (c : Nat), ¬ c < 2 ^ d → (t.threads.filter fun e => decide (e.1 = c)) = [] := by
    intro old sb t c hc
    refine List.filter_eq_nil_iff.2 ?_
    intro e he h
    exact hc (of_decide_eq_true h ▸ t.threads_lt e he)
  obtain ⟨dir, a1, _, a3⟩ := t.run_all
  obtain ⟨dir', b1, _, b3⟩ := t'.run_all
  have hdir := Option.some.inj (a1.symm.trans (key t))
  have hdir' := Option.some.inj (b1.symm.trans (key t'))
  rw [a1, b1]
  congr 1
  funext f
  cases f with
  | header => rw [hdir, hdir']; simp only; rw [t.fold_threads _ _ _ fun _ h => h, t'.fold_threads _ _ _ fun _ h => h]
  | other s => rw [hdir, hdir']; simp only; rw [t.fold_threads _ _ _ fun _ h => h, t'.fold_threads _ _ _ fun _ h => h]
  | store c =>
    by_cases hc : c < 2 ^ d
    · rw [a3 c hc, b3 c hc, h c hc]
    · rw [hdir, hdir']; simp only; rw [t.fold_threads _ _ _ fun _ h => h, t'.fold_threads _ _ _ fun _ h => h]; simp only [big t c hc, big t' c hc]

/-! ### C82 -/

section
variable {d : Nat} {K P D : Type} [Inhabited D]

theorem dyn_files (m m' : MapObj (octreeBackend d) K P D) (hI : Inv (octreeLawful d) m.st) (hI' : Inv (octreeLawful d) m'.st) (hp : m'.pose = m.pose) (hr : m'.resolution = m.resolution)
    (hs : Spec.Restored m.st m'.st) (io : Io K P) (F : Fmt D) : dynHeader m = dynHeader m' ∧ storeFiles io F m = storeFiles io F m' := by
  have hb : m.st.bundleIndices = m'.st.bundleIndices := bundleIndices_ext (octree_ordered d) _ _ hI hI' fun bi => (hs.bundles bi).symm
  refine ⟨?_, ?_⟩
  · unfold dynHeader
    rw [hp, hr, hs.minB, hs.maxB, hb]
  · funext c
    rw [storeFiles_eq, storeFiles_eq, records_ext (octree_ordered d) _ _ hI hI' c fun k => (hs.contents c k).symm]

/-- **C82.** Two reachable dynamic maps with the same origin, resolution, bounds, bundles and contents – however they came about – are saved to the same files: whatever the two target directories contained before
and however the writer threads interleave, the directories are equal byte for byte afterwards. -/
theorem C82_dynamic {g₁ g₂ : Nat → Nat} {g₁' g₂' : Nat} {exp₁ exp₂ : D → Bool} (m m' : MapObj (octreeBackend d) K P D) (hR : MapReachable (.dynamic g₁ g₁') exp₁ m.st)
    (hR' : MapReachable (.dynamic g₂ g₂') exp₂ m'.st) (hp : m'.pose = m.pose) (hr : m'.resolution = m.resolution) (hs : Spec.Restored m.st m'.st) (io : Io K P) (F : Fmt D)
    (h h' : Header K P d) (hh : dynHeader m = some h) (hh' : dynHeader m' = some h')
    (old old' : Option Dir) (t : SaveTrace d old (headerBytes io h) (storeFiles io F m)) (t' : SaveTrace d old' (headerBytes io h') (storeFiles io F m')) :
    runEffs old t.effects = runEffs old' t'.effects := by
  obtain ⟨e1, e2⟩ := dyn_files m m' hR.spec.1.inv hR'.spec.1.inv hp hr hs io F
  rw [hh, hh'] at e1
  cases e1
  exact t.run_unique t' fun c _ => congrFun e2 c

theorem static_files {size : Fin d → Nat} (m m' : MapObj (arrayBackend d) K P D) (hI : Inv (arrayLawful d) m.st) (hI' : Inv (arrayLawful d) m'.st) (hp : m'.pose = m.pose) (hr : m'.resolution = m.resolution)
    (hs : Spec.Restored m.st m'.st) (io : Io K P) (F : Fmt D) : headerBytes io (staticHeader size m) = headerBytes io (staticHeader size m') ∧ storeFiles io F m = storeFiles io F m' := by
  have hb : m.st.bundleIndices = m'.st.bundleIndices := bundleIndices_ext (array_ordered d) _ _ hI hI' fun bi => (hs.bundles bi).symm
  refine ⟨?_, ?_⟩
  · unfold staticHeader
    rw [hp, hr, hs.minB, hb]
  · funext c
    rw [storeFiles_eq, storeFiles_eq, records_ext (array_ordered d) _ _ hI hI' c fun k => (hs.contents c k).symm]

theorem static_traces {size : Fin d → Nat} (m m' : MapObj (arrayBackend d) K P D) (hI : Inv (arrayLawful d) m.st) (hI' : Inv (arrayLawful d) m'.st) (hp : m'.pose = m.pose) (hr : m'.resolution = m.resolution)
    (hs : Spec.Restored m.st m'.st) (io : Io K P) (F : Fmt D)
    (old old' : Option Dir) (t : SaveTrace d old (headerBytes io (staticHeader size m)) (storeFiles io F m))
    (t' : SaveTrace d old' (headerBytes io (staticHeader size m')) (storeFiles io F m')) :
    runEffs old t.effects = runEffs old' t'.effects := by
  obtain ⟨e, f⟩ := static_files (size := size) m m' hI hI' hp hr hs io F
  generalize headerBytes io (staticHeader size m') = hb' at e t'
  subst e
  exact t.run_unique t' fun c _ => congrFun f c

/-- **C82** (static maps): the same for static maps of the same size and lower corner. -/
theorem C82_static {size : Fin d → Nat} {lo : Idx d} {exp₁ exp₂ : D → Bool} (m m' : MapObj (arrayBackend d) K P D) (hR : MapReachable (.static size lo) exp₁ m.st)
    (hR' : MapReachable (.static size lo) exp₂ m'.st) (hp : m'.pose = m.pose) (hr : m'.resolution = m.resolution) (hs : Spec.Restored m.st m'.st) (io : Io K P) (F : Fmt D)
    (old old' : Option Dir) (t : SaveTrace d old (headerBytes io (staticHeader size m)) (storeFiles io F m))
    (t' : SaveTrace d old' (headerBytes io (staticHeader size m')) (storeFiles io F m')) :
    runEffs old t.effects = runEffs old' t'.effects :=
  static_traces m m' hR.spec.1.inv hR'.spec.1.inv hp hr hs io F old old' t t'

/-- **C82** (saving again): a map that is saved, loaded and saved again – elsewhere, with other blocks and another interleaving of the threads – is written to the same files. -/
theorem C82_resave {g : Nat → Nat} {g' : Nat} {exp : D → Bool} (hd : 0 < d) (m : MapObj (octreeBackend d) K P D) (hR : MapReachable (.dynamic g g') exp m.st) (hne : m.st.bundleIndices ≠ [])
    (io : Io K P) (F : Fmt D) (hF : F.reported = F.codec.size) (hok : Storable io F m) (h : Header K P d) (hh : dynHeader m = some h)
    (old : Option Dir) (t : SaveTrace d old (headerBytes io h) (storeFiles io F m))
    (canOpen : Nat → Bool) (sched : List Nat) (hopen : ∀ c ∈ sched, canOpen c = true) (hj : (Threads.run canOpen sched).Joined (2 ^ d))
    (f : Nat → Nat) (f' : Nat) (junk : Nat → D) :
    ∃ m' h', loadDir io d F (rebuildDynamic f f' junk) canOpen sched (runEffs old t.effects) = .loaded m' ∧ dynHeader m' = some h' ∧
      ∀ (old' : Option Dir) (t' : SaveTrace d old' (headerBytes io h') (storeFiles io F m')), runEffs old' t'.effects = runEffs old t.effects := by
  obtain ⟨m', y1, y2, y3, y4, y5⟩ := load_restores hd m hR.spec.1 hne io F hF hok h hh old t canOpen sched hopen hj f f' junk
  obtain ⟨e1, e2⟩ := dyn_files m m' hR.spec.1.inv y5.inv y2 y3 y4 io F
  refine ⟨m', h, y1, e1 ▸ hh, ?_⟩
  intro old' t'
  exact (t.run_unique t' fun c _ => congrFun e2 c).symm

/-- **C82** (saving a static map again): the same for the static maps that can be loaded (see C33). -/
theorem C82_static_resave {size : Fin d → Nat} {lo : Idx d} {exp : D → Bool} (hd : 0 < d) (m : MapObj (arrayBackend d) K P D) (hR : MapReachable (.static size lo) exp m.st)
    (hrange : ∀ a, -2147483648 ≤ lo a ∧ lo a + 2 * (size a : Int) ≤ 2147483647)
    (hpar : lo ⟨0, hd⟩ % 2 = 0 ∨ ∀ bi ∈ m.st.bundleIndices, bi ⟨0, hd⟩ ≠ lo ⟨0, hd⟩ + 2 * (size ⟨0, hd⟩ : Int) - 2)
    (io : Io K P) (F : Fmt D) (hF : F.reported = F.codec.size) (hp : io.pose.Ok m.pose) (hr : io.real.Ok m.resolution) (hv : ∀ c k x, m.st.content c k = some x → F.codec.Ok x)
    (old : Option Dir) (t : SaveTrace d old (headerBytes io (staticHeader size m)) (storeFiles io F m))
    (canOpen : Nat → Bool) (sched : List Nat) (hopen : ∀ c ∈ sched, canOpen c = true) (hj : (Threads.run canOpen sched).Joined (2 ^ d)) (junk : Nat → D) :
    ∃ m', loadDir io d F (rebuildStatic junk) canOpen sched (runEffs old t.effects) = .loaded m' ∧
      ∀ (old' : Option Dir) (t' : SaveTrace d old' (headerBytes io (staticHeader size m')) (storeFiles io F m')), runEffs old' t'.effects = runEffs old t.effects := by
  obtain ⟨m', y1, y2, y3, y4, y5, _⟩ := static_load_restores hd m hR hrange hpar io F hF hp hr hv old t canOpen sched hopen hj junk
  exact ⟨m', y1, fun old' t' => (static_traces m m' hR.spec.1.inv y5.inv y2 y3 y4 io F old old' t t').symm⟩

end

/-- the bins of complete bundles need not be compared separately -/
theorem restored_of_contents {d : Nat} {D : Type} [Inhabited D] {B : Backend d} (L : B.Lawful) (st st' : St B D) (hI : Inv L st) (hI' : Inv L st')
    (hb : ∀ bi, (st.bundle bi).isSome = (st'.bundle bi).isSome) (hc : ∀ c k, st.content c k = st'.content c k) (h1 : st.minB = st'.minB) (h2 : st.maxB = st'.maxB) :
    Spec.Restored st st' := by
  refine ⟨?_, fun c k => (hc c k).symm, ?_, h1.symm, h2.symm⟩
  · intro bi
    rw [mem_bundleIndices L st hI, mem_bundleIndices L st' hI', hb]
  · have key : ∀ s : St B D, Inv L s → ∀ bi c, c < 2 ^ d → s.binContent bi c = if (s.bundle bi).isSome then s.content c (generateIndex bi c) else none := by
      intro s hs bi c hc
      unfold binContent content
      cases hx : s.bundle bi with
      | none => simp
      | some b =>
        obtain ⟨a, ha, hd⟩ := hs.complete bi b hx c hc
        simp [ha, hd]
    intro bi c hc'
    rw [key st hI bi c hc', key st' hI' bi c hc', hb, hc]

/-- **C82** (insertions): two sequences of insert calls on maps with arbitrary histories of octree counters that accept the same points lead to the same files. (With exact numbers: rounding may make the sums
stored in the distributions depend on the order of the points.) -/
theorem C82_insertions {d : Nat} {K P : Type} [Field K] [LinearOrder K] [IsStrictOrderedRing K] [FloorRing K] (g : Nat → Nat) (g' : Nat) (geo : Geo K d) (hr : 0 < geo.r) (exp : Multiset (Pt K d) → Bool)
    (st : St (octreeBackend d) (Multiset (Pt K d))) (hst : Reachable (.dynamic g g') geo exp st) (l l' : List ((Pt K d → Pt K d) × List (Pt K d)))
    (hl : Spec.accepted geo (.dynamic g g') (inserts l) = Spec.accepted geo (.dynamic g g') (inserts l'))
    (s s' : St (octreeBackend d) (Multiset (Pt K d))) (hs : gridRun geo true exp (inserts l) st = some s) (hs' : gridRun geo true exp (inserts l') st = some s')
    (pose : P) (io : Io K P) (F : Fmt (Multiset (Pt K d))) (h h' : Header K P d) (hh : dynHeader ⟨pose, geo.r, s⟩ = some h) (hh' : dynHeader ⟨pose, geo.r, s'⟩ = some h')
    (old old' : Option Dir) (t : SaveTrace d old (headerBytes io h) (storeFiles io F ⟨pose, geo.r, s⟩)) (t' : SaveTrace d old' (headerBytes io h') (storeFiles io F ⟨pose, geo.r, s'⟩)) :
    runEffs old t.effects = runEffs old' t'.effects := by
  obtain ⟨x, hx, hsame⟩ := C12_only_points_matter (.dynamic g g') geo hr exp st hst l l' hl s hs
  obtain rfl : x = s' := Option.some.inj (hx.symm.trans hs')
  obtain ⟨ops, hops⟩ := hst
  have hR : MapReachable (.dynamic g g') exp st := grid_reachable geo (.dynamic g g') exp ops _ st .init hops
  have hRs : MapReachable (.dynamic g g') exp s := grid_reachable geo (.dynamic g g') exp _ _ s hR hs
  have hRx : MapReachable (.dynamic g g') exp x := grid_reachable geo (.dynamic g g') exp _ _ x hR hx
  exact C82_dynamic ⟨pose, geo.r, s⟩ ⟨pose, geo.r, x⟩ hRs hRx rfl rfl
    (restored_of_contents (octreeLawful d) s x hRs.spec.1.inv hRx.spec.1.inv hsame.bundles hsame.contents hsame.bounds.1 hsame.bounds.2) io F h h' hh hh' old old' t t'

/-! ### Non-vacuity -/

/-- two points inserted at once, or one after the other in the opposite order -/
def bothPoints : List ((Pt ℚ 2 → Pt ℚ 2) × List (Pt ℚ 2)) := [(id, [![-3/10, 13/5], ![1/5, 1/5]])]
def onePoint : List ((Pt ℚ 2 → Pt ℚ 2) × List (Pt ℚ 2)) := [(id, [![1/5, 1/5]]), (id, [![-3/10, 13/5]])]

theorem points_run (l : List ((Pt ℚ 2 → Pt ℚ 2) × List (Pt ℚ 2))) (hl : l = bothPoints ∨ l = onePoint) :
    ∃ st, gridRun sampleGeo true (fun _ => true) (inserts l) ((Kind.dynamic 0 0).init (Multiset (Pt ℚ 2))) = some st := by
  refine dynamic_run_total sampleGeo _ 0 0 10 _ _ (Kind.init_rinv (.dynamic 0 0)) (.refl ..) ?_ 10 (le_refl _) ?_ ?_
  · have key : ∀ cloud : List (Pt ℚ 2), (∀ p ∈ cloud, p = ![-3/10, 13/5] ∨ p = ![1/5, 1/5]) → OpWithin sampleGeo 10 (.insert id cloud) := by
      intro cloud hc p hp a
      have : p ∈ cloud := by simpa [accList, sampleGeo] using hp
      rcases hc p this with rfl | rfl <;> fin_cases a <;> norm_num [toBundleIndex, bundleResolutionInv, bundleResolution, sampleGeo, abs_le]
    intro op hop
    obtain ⟨e, he, rfl⟩ := List.mem_map.1 hop
    rcases hl with rfl | rfl
    · simp only [bothPoints, List.mem_cons, List.not_mem_nil, or_false] at he
      subst he
      exact key _ (by simp)
    · simp only [onePoint, List.mem_cons, List.not_mem_nil, or_false] at he
      rcases he with rfl | rfl <;> exact key _ (by simp)
  · intro bi hbi; rw [Kind.init_allocated] at hbi; exact absurd hbi (Set.notMem_empty _)
  · rcases hl with rfl | rfl <;> decide

example (F : Fmt (Multiset (Pt ℚ 2))) (io : Io ℚ Nat) : ∃ (s s' : St (octreeBackend 2) (Multiset (Pt ℚ 2))) (h h' : Header ℚ Nat 2), s.bundleIndices ≠ [] ∧
    gridRun sampleGeo true (fun _ => true) (inserts bothPoints) ((Kind.dynamic 0 0).init (Multiset (Pt ℚ 2))) = some s ∧
    gridRun sampleGeo true (fun _ => true) (inserts onePoint) ((Kind.dynamic 0 0).init (Multiset (Pt ℚ 2))) = some s' ∧
    dynHeader ⟨3, 1, s⟩ = some h ∧ dynHeader ⟨3, 1, s'⟩ = some h' ∧
    ∀ (old old' : Option Dir) (t : SaveTrace 2 old (headerBytes io h) (storeFiles io F ⟨3, 1, s⟩)) (t' : SaveTrace 2 old' (headerBytes io h') (storeFiles io F ⟨3, 1, s'⟩)),
      runEffs old t.effects = runEffs old' t'.effects := by
  obtain ⟨s, hs⟩ := points_run _ (Or.inl rfl)
  obtain ⟨s', hs'⟩ := points_run _ (Or.inr rfl)
  have hne : ∀ (l : List ((Pt ℚ 2 → Pt ℚ 2) × List (Pt ℚ 2))) s, (l = bothPoints ∨ l = onePoint) → gridRun sampleGeo true (fun _ => true) (inserts l) ((Kind.dynamic 0 0).init (Multiset (Pt ℚ 2))) = some s →
      s.bundleIndices ≠ [] := by
    intro l s hl hs
    obtain ⟨hI, _, _, h4⟩ := gridRun_spec (octreeLawful 2) sampleGeo true _ _ _ s (Kind.init_rinv (.dynamic 0 0)) hs
    have := h4 ![1/5, 1/5] (by rcases hl with rfl | rfl <;> simp [accOps, accList, inserts, bothPoints, onePoint, sampleGeo, Abs.valid])
    rw [mem_allocated_iff] at this
    exact List.ne_nil_of_mem ((mem_bundleIndices _ s hI.inv _).2 this)
  have hR : ∀ l s, gridRun sampleGeo true (fun _ => true) (inserts l) ((Kind.dynamic 0 0).init (Multiset (Pt ℚ 2))) = some s → MapReachable (.dynamic 0 0) (fun _ => true) s :=
    fun l s hs => grid_reachable sampleGeo (.dynamic 0 0) _ _ _ s .init hs
  obtain ⟨h, hh⟩ := Option.isSome_iff_exists.1 (C31_header_defined (K := ℚ) (P := Nat) ⟨3, 1, s⟩ (hR _ _ hs) (hne _ _ (Or.inl rfl) hs))
  obtain ⟨h', hh'⟩ := Option.isSome_iff_exists.1 (C31_header_defined (K := ℚ) (P := Nat) ⟨3, 1, s'⟩ (hR _ _ hs') (hne _ _ (Or.inr rfl) hs'))
  refine ⟨s, s', h, h', hne _ _ (Or.inl rfl) hs, hs, hs', hh, hh', ?_⟩
  intro old old' t t'
  refine C82_insertions 0 0 sampleGeo (by norm_num [sampleGeo]) (fun _ => true) _ ⟨[], rfl⟩ bothPoints onePoint ?_ s s' hs hs' 3 io F h h' hh hh' old old' t t'
  simp only [Spec.accepted, Spec.acceptedPoints, inserts, bothPoints, onePoint, sampleGeo, List.map_cons, List.map_nil, add_zero, ← Multiset.filter_add, id, List.filter_true]
  rw [Multiset.coe_add]
  exact congrArg _ (Multiset.coe_eq_coe.2 (List.Perm.swap ..))

/-- two static maps with different flags -/
example (F : Fmt (Multiset (Pt ℚ 1))) (io : Io ℚ Nat) : ∃ st st' : St (arrayBackend 1) (Multiset (Pt ℚ 1)),
    (st.bundle (fun _ => 1)).map Bundle.expand ≠ (st'.bundle (fun _ => 1)).map Bundle.expand ∧
    ∀ (old old' : Option Dir) (t : SaveTrace 1 old (headerBytes io (staticHeader (fun _ => 3) ⟨3, 1, st⟩)) (storeFiles io F ⟨3, 1, st⟩))
      (t' : SaveTrace 1 old' (headerBytes io (staticHeader (fun _ => 3) ⟨3, 1, st'⟩)) (storeFiles io F ⟨3, 1, st'⟩)),
      runEffs old t.effects = runEffs old' t'.effects := by
  obtain ⟨st, st', h1, h2, h3, h4, h5⟩ := sample_flags
  exact ⟨st, st', by rw [h4, h5]; decide, C82_static ⟨3, 1, st⟩ ⟨3, 1, st'⟩ h1 h2 rfl rfl h3 io F⟩

end Ndt
