import Verif.Proofs.GridmapMore
import Verif.Props.Index

/-! Property theorems C10–C15: contents, sharing and bounds of NDT maps after arbitrary histories. -/

namespace Ndt
open St

section
variable {K : Type} [Field K] [LinearOrder K] [IsStrictOrderedRing K] [FloorRing K] {d : Nat}

/-! ### C10 -/

open scoped Classical in
/-- **C10.** After any history on any (dynamic or static) NDT map, the distribution of grid `c` at index `i` (absent = empty) contains exactly the multiset of accepted points
that lie in cell `i` of grid `c`. -/
theorem C10_contents_exact (k : Kind d) (g : Geo K d) (hr : 0 < g.r) (exp : Multiset (Pt K d) → Bool) (ops : List (GridOp K d))
    (st : St k.backend (Multiset (Pt K d))) (h : gridRun g k.dyn exp ops (k.init _) = some st) (c : Nat) (hc : c < 2 ^ d) (i : Idx d) :
    (st.content c i).getD 0 = (Spec.accepted g k ops).filter (Spec.InCell g.r c i) := by
  obtain ⟨_, _, h3, _⟩ := gridRun_spec k.lawful g k.dyn exp ops _ st k.init_rinv h
  have e := h3 c hc i
  have e0 : (k.init (Multiset (Pt K d))).abs.val c i = 0 := by unfold Abs.val; rw [Kind.init_content]; rfl
  rw [e0, zero_add] at e
  refine Eq.trans (show _ = st.abs.val c i from rfl) (e.trans ?_)
  rw [← accOps_eq (Multiset (Pt K d)) g hr k ops, Multiset.filter_coe]
  refine congrArg _ (List.filter_congr fun p _ => ?_)
  rw [Bool.eq_iff_iff, decide_eq_true_iff, decide_eq_true_iff]
  exact C01_point_in_selected_cell hr p c i

open scoped Classical in
/-- **C10** (through bundles): what a user sees through a bundle is the same: bin `c` of the bundle at `bi` holds exactly the accepted points in the cell it
overlaps. -/
theorem C10_bundle_contents (k : Kind d) (g : Geo K d) (hr : 0 < g.r) (exp : Multiset (Pt K d) → Bool) (ops : List (GridOp K d))
    (st : St k.backend (Multiset (Pt K d))) (h : gridRun g k.dyn exp ops (k.init _) = some st) (c : Nat) (hc : c < 2 ^ d) (bi : Idx d)
    (hb : bi ∈ st.bundleIndices) :
    st.binContent bi c = some ((Spec.accepted g k ops).filter (Spec.InCell g.r c (generateIndex bi c))) := by
  have hI := (gridRun_spec k.lawful g k.dyn exp ops _ st k.init_rinv h).1
  obtain ⟨b, hbb⟩ := Option.isSome_iff_exists.1 ((mem_bundleIndices k.lawful st hI.inv bi).1 hb)
  obtain ⟨a, h1, h2⟩ := hI.inv.complete bi b hbb c hc
  have h3 := C10_contents_exact k g hr exp ops st h c hc (generateIndex bi c)
  unfold content at h3
  rw [h2] at h3
  unfold binContent
  rw [hbb]
  simp only [Option.bind_some, h1, Option.map_some]
  exact congrArg some h3

/-- A sample history on a 2D map of resolution 1: two clouds, a bundle lookup and a neighbourhood allocation in between. -/
def sampleOps : List (GridOp ℚ 2) :=
  [.insert id [![-3/10, 13/5], ![1/5, 1/5], ![1/5, 3/10]], .core (.bundleAt ![5, -2]), .core .expandAll,
   .insert id [![1/10, 1/10], ![1/5, 1/5]]]

def sampleGeo : Geo ℚ 2 := { r := 1, toMap := id, normal := fun _ => true }

/-- Non-vacuity: the sample history runs on a dynamic map, and it accepts all five points. -/
theorem sample_runs (g : Nat → Nat) (g' : Nat) (exp : Multiset (Pt ℚ 2) → Bool) :
    ∃ st, gridRun sampleGeo true exp sampleOps ((Kind.dynamic g g').init (Multiset (Pt ℚ 2))) = some st := by
  refine dynamic_run_total sampleGeo exp g g' 10 sampleOps _ (Kind.init_rinv (.dynamic g g')) (.refl ..) ?_ 10 (le_refl _) ?_ ?_
  · intro op hop
    simp only [sampleOps, List.mem_cons, List.not_mem_nil, or_false] at hop
    rcases hop with rfl | rfl | rfl | rfl
    · intro p hp a
      have : p ∈ ([![-3/10, 13/5], ![1/5, 1/5], ![1/5, 3/10]] : List (Pt ℚ 2)) := by simpa [accList, sampleGeo] using hp
      simp only [List.mem_cons, List.not_mem_nil, or_false] at this
      rcases this with rfl | rfl | rfl <;> fin_cases a <;>
        norm_num [toBundleIndex, bundleResolutionInv, bundleResolution, sampleGeo, abs_le]
    · show ∀ a, _
      decide
    · trivial
    · intro p hp a
      have : p ∈ ([![1/10, 1/10], ![1/5, 1/5]] : List (Pt ℚ 2)) := by simpa [accList, sampleGeo] using hp
      simp only [List.mem_cons, List.not_mem_nil, or_false] at this
      rcases this with rfl | rfl <;> fin_cases a <;>
        norm_num [toBundleIndex, bundleResolutionInv, bundleResolution, sampleGeo, abs_le]
  · intro bi hbi; rw [Kind.init_allocated] at hbi; exact absurd hbi (Set.notMem_empty _)
  · decide

example : (Spec.accepted sampleGeo (.dynamic 0 0) sampleOps).card = 5 := by
  rw [← accOps_eq (Multiset (Pt ℚ 2)) sampleGeo (by decide)]
  rfl

/-! ### C11 -/

/-- **C11.** For every history and every grid `c`, the sample counts of all distributions stored in grid `c` sum to the number of accepted points. -/
theorem C11_mass_per_grid (k : Kind d) (g : Geo K d) (hr : 0 < g.r) (exp : Multiset (Pt K d) → Bool) (ops : List (GridOp K d))
    (st : St k.backend (Multiset (Pt K d))) (h : gridRun g k.dyn exp ops (k.init _) = some st) (c : Nat) (hc : c < 2 ^ d) :
    ((k.backend.traverse (st.storage c)).map fun e => (st.heap e.2).card).sum = (Spec.accepted g k ops).card := by
  obtain ⟨hI, _, h3, h4⟩ := gridRun_spec k.lawful g k.dyn exp ops _ st k.init_rinv h
  have key : ∀ e ∈ k.backend.traverse (st.storage c), (st.heap e.2).card =
      ((accOps g ((k.init (Multiset (Pt K d))).abs.valid k.dyn) ops).filter
        (fun p => decide (generateIndex (toBundleIndex g.r p) c = e.1))).length := by
    rintro ⟨i, a⟩ he
    have hd : st.dist c i = some a := (k.lawful.mem_traverse _ (hI.inv.store c) i a).1 he
    have e := h3 c hc i
    have e0 : (k.init (Multiset (Pt K d))).abs.val c i = 0 := by unfold Abs.val; rw [Kind.init_content]; rfl
    rw [e0, zero_add] at e
    have hv : st.abs.val c i = st.heap a := by
      show (st.content c i).getD _ = _
      unfold content; rw [hd]; rfl
    rw [hv] at e
    rw [e, Multiset.coe_card]
  rw [List.map_congr_left key]
  have hmm : ((k.backend.traverse (st.storage c)).map fun e =>
        ((accOps g ((k.init (Multiset (Pt K d))).abs.valid k.dyn) ops).filter
          (fun p => decide (generateIndex (toBundleIndex g.r p) c = e.1))).length) =
      ((k.backend.traverse (st.storage c)).map Prod.fst).map fun i =>
        ((accOps g ((k.init (Multiset (Pt K d))).abs.valid k.dyn) ops).filter
          (fun p => decide (generateIndex (toBundleIndex g.r p) c = i))).length := by
    rw [List.map_map]; rfl
  rw [hmm, sum_card_filter (fun p => generateIndex (toBundleIndex g.r p) c) _ _ (k.lawful.nodup_traverse _ (hI.inv.store c))]
  · rw [← accOps_eq (Multiset (Pt K d)) g hr k ops, Multiset.coe_card]
  · intro p hp
    have hal := h4 p hp
    have hsome := (hI.ainv.used c (generateIndex (toBundleIndex g.r p) c)).2 ⟨hc, _, hal, rfl⟩
    obtain ⟨x, hx⟩ := Option.isSome_iff_exists.1 hsome
    have : ∃ a, st.dist c (generateIndex (toBundleIndex g.r p) c) = some a := by
      have hx' : st.content c (generateIndex (toBundleIndex g.r p) c) = some x := hx
      unfold content at hx'
      obtain ⟨a, ha, _⟩ := Option.map_eq_some_iff.1 hx'
      exact ⟨a, ha⟩
    obtain ⟨a, ha⟩ := this
    exact List.mem_map.2 ⟨(_, a), (k.lawful.mem_traverse _ (hI.inv.store c) _ a).2 ha, rfl⟩

/-- **C11** (per point): every accepted point is in exactly one stored distribution of each grid, hence in exactly `2^d` distributions. -/
theorem C11_point_once_per_grid (k : Kind d) (g : Geo K d) (hr : 0 < g.r) (exp : Multiset (Pt K d) → Bool) (ops : List (GridOp K d))
    (st : St k.backend (Multiset (Pt K d))) (h : gridRun g k.dyn exp ops (k.init _) = some st) (p : Pt K d) (hp : p ∈ Spec.accepted g k ops)
    (c : Nat) (hc : c < 2 ^ d) : ∃! i : Idx d, ∃ s, st.content c i = some s ∧ p ∈ s := by
  classical
  refine ⟨generateIndex (toBundleIndex g.r p) c, ?_, ?_⟩
  · have h1 := C10_contents_exact k g hr exp ops st h c hc (generateIndex (toBundleIndex g.r p) c)
    have hm : p ∈ (st.content c (generateIndex (toBundleIndex g.r p) c)).getD 0 := by
      rw [h1, Multiset.mem_filter]
      exact ⟨hp, (C01_point_in_selected_cell hr p c _).1 rfl⟩
    cases hx : st.content c (generateIndex (toBundleIndex g.r p) c) with
    | none => rw [hx] at hm; exact absurd hm (Multiset.notMem_zero p)
    | some s => rw [hx] at hm; exact ⟨s, hx, hm⟩
  · rintro i ⟨s, hs, hps⟩
    have h1 := C10_contents_exact k g hr exp ops st h c hc i
    rw [hs] at h1
    have : s = (Spec.accepted g k ops).filter (Spec.InCell g.r c i) := h1.trans (by congr)
    rw [this, Multiset.mem_filter] at hps
    exact ((C01_point_in_selected_cell hr p c i).2 hps.2).symm

/-! ### C12 -/

/-- Two maps cannot be told apart: same allocated bundles with the same expansion state, same contents of all distributions, same bounds. -/
structure SameMap {B : Backend d} {D : Type} (s t : St B D) : Prop where
  bundles : ∀ bi, (s.bundle bi).isSome = (t.bundle bi).isSome
  expand : ∀ bi, (s.bundle bi).map Bundle.expand = (t.bundle bi).map Bundle.expand
  contents : ∀ c i, s.content c i = t.content c i
  bounds : s.minB = t.minB ∧ s.maxB = t.maxB

theorem SameMap.of_abs {B : Backend d} {D : Type} {s t : St B D} (h : s.abs = t.abs) : SameMap s t where
  bundles := fun bi => by
    have : (s.bundle bi).map Bundle.expand = (t.bundle bi).map Bundle.expand := congrFun (congrArg Abs.flags h) bi
    have := congrArg Option.isSome this
    simpa using this
  expand := fun bi => congrFun (congrArg Abs.flags h) bi
  contents := fun c i => congrFun (congrFun (congrArg Abs.content h) c) i
  bounds := ⟨congrArg Abs.minB h, congrArg Abs.maxB h⟩

/-- a history consisting of `insert` calls only -/
def inserts (l : List ((Pt K d → Pt K d) × List (Pt K d))) : List (GridOp K d) := l.map fun e => .insert e.1 e.2

omit [IsStrictOrderedRing K] in
theorem inserts_run {B : Backend d} (L : B.Lawful) (g : Geo K d) (dyn : Bool) (exp : Multiset (Pt K d) → Bool) :
    ∀ (l : List ((Pt K d → Pt K d) × List (Pt K d))) (st st' : St B (Multiset (Pt K d))), RInv L dyn st →
    gridRun g dyn exp (inserts l) st = some st' →
    (∀ bj, st'.abs.flags bj = if ∃ p ∈ accOps g (st.abs.valid dyn) (inserts l), toBundleIndex g.r p = bj then some ((st.abs.flags bj).getD true) else st.abs.flags bj) ∧
    (∀ p ∈ accOps g (st.abs.valid dyn) (inserts l), st.abs.Good (toBundleIndex g.r p))
  | [], st, st', _, h => by cases h; exact ⟨fun bj => by simp [inserts, accOps], by simp [inserts, accOps]⟩
  | e :: l, st, st', hI, h => by
    change (gridStep g dyn exp (.insert e.1 e.2) st).bind (gridRun g dyn exp (inserts l)) = some st' at h
    obtain ⟨st1, h1, h2⟩ := Option.bind_eq_some_iff.1 h
    obtain ⟨a1, a2, a3, a4, a5⟩ := gridInsert_spec L g dyn e.1 e.2 st st1 hI h1
    obtain ⟨b1, b2⟩ := inserts_run L g dyn exp l st1 st' a1 h2
    have hv : st1.abs.valid dyn = st.abs.valid dyn := funext a2.valid
    rw [hv] at b1 b2
    have hacc : accOps g (st.abs.valid dyn) (inserts (e :: l)) = accList g (st.abs.valid dyn) e.1 e.2 ++ accOps g (st.abs.valid dyn) (inserts l) := rfl
    rw [hacc]
    refine ⟨?_, ?_⟩
    · intro bj
      rw [b1, a4]
      by_cases x : ∃ p ∈ accList g (st.abs.valid dyn) e.1 e.2, toBundleIndex g.r p = bj
      · have x' : ∃ p ∈ accList g (st.abs.valid dyn) e.1 e.2 ++ accOps g (st.abs.valid dyn) (inserts l), toBundleIndex g.r p = bj := by
          obtain ⟨p, hp, e⟩ := x; exact ⟨p, List.mem_append_left _ hp, e⟩
        rw [if_pos x, if_pos x']
        split <;> rfl
      · rw [if_neg x]
        by_cases y : ∃ p ∈ accOps g (st.abs.valid dyn) (inserts l), toBundleIndex g.r p = bj
        · have y' : ∃ p ∈ accList g (st.abs.valid dyn) e.1 e.2 ++ accOps g (st.abs.valid dyn) (inserts l), toBundleIndex g.r p = bj := by
            obtain ⟨p, hp, e⟩ := y; exact ⟨p, List.mem_append_right _ hp, e⟩
          rw [if_pos y, if_pos y']
        · have y' : ¬ ∃ p ∈ accList g (st.abs.valid dyn) e.1 e.2 ++ accOps g (st.abs.valid dyn) (inserts l), toBundleIndex g.r p = bj := by
            rintro ⟨p, hp, e⟩
            rcases List.mem_append.1 hp with hp | hp
            · exact x ⟨p, hp, e⟩
            · exact y ⟨p, hp, e⟩
          rw [if_neg y, if_neg y']
    · intro p hp
      rcases List.mem_append.1 hp with hp | hp
      · exact a5 p hp
      · exact (a2.good _).1 (b2 p hp)

omit [IsStrictOrderedRing K] in
theorem inserts_total {B : Backend d} (L : B.Lawful) (g : Geo K d) (dyn : Bool) (exp : Multiset (Pt K d) → Bool) :
    ∀ (l : List ((Pt K d → Pt K d) × List (Pt K d))) (st : St B (Multiset (Pt K d))), RInv L dyn st →
    (∀ p ∈ accOps g (st.abs.valid dyn) (inserts l), st.abs.Good (toBundleIndex g.r p)) →
    ∃ st', gridRun g dyn exp (inserts l) st = some st'
  | [], st, _, _ => ⟨st, rfl⟩
  | e :: l, st, hI, hg => by
    have hacc : accOps g (st.abs.valid dyn) (inserts (e :: l)) = accList g (st.abs.valid dyn) e.1 e.2 ++ accOps g (st.abs.valid dyn) (inserts l) := rfl
    rw [hacc] at hg
    obtain ⟨st1, h1⟩ := gridInsert_total L g dyn e.1 e.2 st hI (fun p hp => hg p (List.mem_append_left _ hp))
    obtain ⟨a1, a2, _⟩ := gridInsert_spec L g dyn e.1 e.2 st st1 hI h1
    have hv : st1.abs.valid dyn = st.abs.valid dyn := funext a2.valid
    obtain ⟨s, hs⟩ := inserts_total L g dyn exp l st1 a1 (by
      rw [hv]; intro p hp; exact (a2.good _).2 (hg p (List.mem_append_right _ hp)))
    refine ⟨s, ?_⟩
    change (gridStep g dyn exp (.insert e.1 e.2) st).bind (gridRun g dyn exp (inserts l)) = some s
    rw [show gridStep g dyn exp (.insert e.1 e.2) st = some st1 from h1]
    exact hs

/-- **C12.** From any reachable map, two sequences of insert calls that accept the same points (as multisets) have the same outcome: both leave the contract of the storages or
neither does, and in the latter case the resulting maps are indistinguishable. -/
theorem C12_only_points_matter (k : Kind d) (g : Geo K d) (hr : 0 < g.r) (exp : Multiset (Pt K d) → Bool)
    (st : St k.backend (Multiset (Pt K d))) (hst : Reachable k g exp st) (l l' : List ((Pt K d → Pt K d) × List (Pt K d)))
    (hl : Spec.accepted g k (inserts l) = Spec.accepted g k (inserts l')) (s : St k.backend (Multiset (Pt K d)))
    (h : gridRun g k.dyn exp (inserts l) st = some s) :
    ∃ s', gridRun g k.dyn exp (inserts l') st = some s' ∧ SameMap s s' := by
  have hI := hst.rinv
  have hk := hst.keeps
  have hv : st.abs.valid k.dyn = (k.init (Multiset (Pt K d))).abs.valid k.dyn := funext hk.valid
  obtain ⟨f1, f2⟩ := inserts_run k.lawful g k.dyn exp l st s hI h
  have hperm : (accOps g (st.abs.valid k.dyn) (inserts l)).Perm (accOps g (st.abs.valid k.dyn) (inserts l')) := by
    rw [hv, ← Multiset.coe_eq_coe, accOps_eq _ g hr k, accOps_eq _ g hr k, hl]
  obtain ⟨s', hs'⟩ := inserts_total k.lawful g k.dyn exp l' st hI (fun p hp => f2 p (hperm.mem_iff.2 hp))
  refine ⟨s', hs', SameMap.of_abs ?_⟩
  obtain ⟨a1, a2, a3, _⟩ := gridRun_spec k.lawful g k.dyn exp _ st s hI h
  obtain ⟨b1, b2, b3, _⟩ := gridRun_spec k.lawful g k.dyn exp _ st s' hI hs'
  obtain ⟨f1', _⟩ := inserts_run k.lawful g k.dyn exp l' st s' hI hs'
  refine Abs.ext_of_ainv a1.ainv b1.ainv ?_ ?_ (a2.okB.trans b2.okB.symm) (a2.okD.trans b2.okD.symm) ?_
  · funext bj
    rw [f1, f1']
    have : (∃ p ∈ accOps g (st.abs.valid k.dyn) (inserts l), toBundleIndex g.r p = bj) ↔
        ∃ p ∈ accOps g (st.abs.valid k.dyn) (inserts l'), toBundleIndex g.r p = bj :=
      exists_congr fun p => and_congr_left fun _ => hperm.mem_iff
    by_cases x : ∃ p ∈ accOps g (st.abs.valid k.dyn) (inserts l), toBundleIndex g.r p = bj
    · rw [if_pos x, if_pos (this.1 x)]
    · rw [if_neg x, if_neg (fun y => x (this.2 y))]
  · intro c hc i
    rw [a3 c hc i, b3 c hc i]
    exact congrArg (_ + ·) (Multiset.coe_eq_coe.2 (hperm.filter _))
  · intro hd
    exact ⟨(a2.static hd).1.trans (b2.static hd).1.symm, (a2.static hd).2.trans (b2.static hd).2.symm⟩

/-- **C12** (order): inserting a permuted cloud gives an indistinguishable map. -/
theorem C12_order_irrelevant (k : Kind d) (g : Geo K d) (hr : 0 < g.r) (exp : Multiset (Pt K d) → Bool)
    (st : St k.backend (Multiset (Pt K d))) (hst : Reachable k g exp st) (pose : Pt K d → Pt K d) (cloud cloud' : List (Pt K d))
    (hp : cloud.Perm cloud') (s : St k.backend (Multiset (Pt K d))) (h : gridInsert g k.dyn pose cloud st = some s) :
    ∃ s', gridInsert g k.dyn pose cloud' st = some s' ∧ SameMap s s' := by
  obtain ⟨s', hs', hm⟩ := C12_only_points_matter k g hr exp st hst [(pose, cloud)] [(pose, cloud')] (by
    simp only [inserts, List.map_cons, List.map_nil, Spec.accepted, Spec.acceptedPoints, add_zero]
    congr 1
    rw [Multiset.coe_eq_coe]
    exact ((hp.map pose).filter _).map _) s (by
      change (gridStep g k.dyn exp (.insert pose cloud) st).bind some = some s
      rw [show gridStep g k.dyn exp (.insert pose cloud) st = some s from h]; rfl)
  change (gridStep g k.dyn exp (.insert pose cloud') st).bind some = some s' at hs'
  refine ⟨s', ?_, hm⟩
  obtain ⟨x, hx, hx'⟩ := Option.bind_eq_some_iff.1 hs'
  cases hx'; exact hx

/-- **C12** (batching): inserting a cloud at once, or in any number of successive parts, gives indistinguishable maps. -/
theorem C12_batching_irrelevant (k : Kind d) (g : Geo K d) (hr : 0 < g.r) (exp : Multiset (Pt K d) → Bool)
    (st : St k.backend (Multiset (Pt K d))) (hst : Reachable k g exp st) (pose : Pt K d → Pt K d) (parts : List (List (Pt K d)))
    (s : St k.backend (Multiset (Pt K d))) (h : gridInsert g k.dyn pose parts.flatten st = some s) :
    ∃ s', gridRun g k.dyn exp (parts.map fun c => .insert pose c) st = some s' ∧ SameMap s s' := by
  have e : ∀ l : List (List (Pt K d)), Spec.accepted g k (inserts (l.map fun c => (pose, c))) = Spec.acceptedPoints g k pose l.flatten := by
    intro l
    induction l with
    | nil => simp [inserts, Spec.accepted, Spec.acceptedPoints]
    | cons c l ih =>
      change Spec.acceptedPoints g k pose c + Spec.accepted g k (inserts (l.map fun c => (pose, c))) = _
      rw [ih]
      simp only [Spec.acceptedPoints, List.flatten_cons, List.map_append, List.filter_append, ← Multiset.coe_add, Multiset.filter_add]
  obtain ⟨s', hs', hm⟩ := C12_only_points_matter k g hr exp st hst [(pose, parts.flatten)] (parts.map fun c => (pose, c)) (by
    rw [e]; simp only [inserts, List.map_cons, List.map_nil, Spec.accepted, add_zero]) s (by
      change (gridStep g k.dyn exp (.insert pose parts.flatten) st).bind some = some s
      rw [show gridStep g k.dyn exp (.insert pose parts.flatten) st = some s from h]; rfl)
  refine ⟨s', ?_, hm⟩
  unfold inserts at hs'
  rw [List.map_map] at hs'
  exact hs'

/-- Non-vacuity: the sample history on a static map (which accepts part of the points) reaches a state. -/
example : ∃ st, Reachable (K := ℚ) (.static ![3, 3] ![-2, 0]) sampleGeo (fun _ => true) st :=
  (gridRun_total (arrayLawful 2) sampleGeo false _ sampleOps _ (Kind.init_rinv (.static ![3, 3] ![-2, 0]))
    (fun i h => Kind.static_good _ _ i h)).elim fun st h => ⟨st, sampleOps, h⟩

/-! ### C13 -/

omit [IsStrictOrderedRing K] in
/-- **C13.** After any history on a dynamic map the stored bounds are the componentwise minimum and maximum over the allocated bundles (the sentinel values if there are none). -/
theorem C13_bounds_tight (g' : Nat → Nat) (g'' : Nat) (g : Geo K d) (exp : Multiset (Pt K d) → Bool)
    (st : St (octreeBackend d) (Multiset (Pt K d))) (h : Reachable (.dynamic g' g'') g exp st) :
    Spec.TightBounds {bi | bi ∈ st.bundleIndices} st.minB st.maxB := by
  have hI := h.rinv
  have := hI.ainv.bounds rfl
  have e : {bi | bi ∈ st.bundleIndices} = st.abs.allocated := by
    ext bi
    rw [mem_allocated_iff]
    exact mem_bundleIndices _ st hI.inv bi
  rw [e]; exact this

omit [IsStrictOrderedRing K] in
/-- **C13** (`empty()`): a dynamic map is empty exactly when no bundle is allocated. -/
theorem C13_empty_iff (hd : 0 < d) (g' : Nat → Nat) (g'' : Nat) (g : Geo K d) (exp : Multiset (Pt K d) → Bool)
    (st : St (octreeBackend d) (Multiset (Pt K d))) (h : Reachable (.dynamic g' g'') g exp st) :
    st.isEmpty true hd = true ↔ st.bundleIndices = [] := by
  unfold isEmpty
  rw [Bool.true_and, decide_eq_true_iff]
  have hI := h.rinv
  rcases C13_bounds_tight g' g'' g exp st h with ⟨e, hb⟩ | ⟨⟨bi, hbi⟩, hb⟩
  · refine iff_of_true (hb _).1 ?_
    rw [List.eq_nil_iff_forall_not_mem]
    intro bi hbi
    exact Set.notMem_empty bi (e ▸ (show bi ∈ {bi | bi ∈ st.bundleIndices} from hbi))
  · refine iff_of_false ?_ (List.ne_nil_of_mem hbi)
    obtain ⟨⟨b, hb1, hb2⟩, _⟩ := (hb ⟨0, hd⟩).1
    have hok : st.abs.okB b = true := by
      obtain ⟨x, hx⟩ := Option.isSome_iff_exists.1 ((mem_bundleIndices _ st hI.inv b).1 hb1)
      unfold bundle Backend.look at hx
      split at hx
      · assumption
      · cases hx
    rw [h.keeps.okB] at hok
    have hr : Spec.InRange b := of_decide_eq_true hok
    have := hr ⟨0, hd⟩
    omega

/-- **C13** (metric bounds): every accepted point lies in `[getMin(), getMax())`. -/
theorem C13_points_in_bounds (g' : Nat → Nat) (g'' : Nat) (g : Geo K d) (hr : 0 < g.r) (exp : Multiset (Pt K d) → Bool) (ops : List (GridOp K d))
    (st : St (octreeBackend d) (Multiset (Pt K d))) (h : gridRun g true exp ops ((Kind.dynamic g' g'').init _) = some st)
    (p : Pt K d) (hp : p ∈ Spec.accepted g (.dynamic g' g'') ops) (a : Fin d) :
    st.getMin g.r a ≤ p a ∧ p a < st.getMax g.r a := by
  have hR : Reachable (.dynamic g' g'') g exp st := ⟨ops, h⟩
  have h4 := (gridRun_spec (octreeLawful d) g true exp ops _ st (Kind.init_rinv (.dynamic g' g'')) h).2.2.2
  rw [← accOps_eq (Multiset (Pt K d)) g hr, Multiset.mem_coe] at hp
  have hal := h4 p hp
  rw [mem_allocated_iff] at hal
  have hmem := (mem_bundleIndices _ st hR.rinv.inv _).2 hal
  have hin := (C01_bundle_contains_point hr p _).1 rfl a
  rcases C13_bounds_tight g' g'' g exp st hR with ⟨e, _⟩ | ⟨_, hb⟩
  · exact absurd (e ▸ (show toBundleIndex g.r p ∈ {bi | bi ∈ st.bundleIndices} from hmem)) (Set.notMem_empty _)
  · have h1 : st.minB a ≤ toBundleIndex g.r p a := (hb a).1.2 ⟨_, hmem, rfl⟩
    have h2 : toBundleIndex g.r p a ≤ st.maxB a := (hb a).2.2 ⟨_, hmem, rfl⟩
    have h1' : (st.minB a : K) ≤ (toBundleIndex g.r p a : K) := Int.cast_le.2 h1
    have h2' : (toBundleIndex g.r p a : K) ≤ (st.maxB a : K) := Int.cast_le.2 h2
    unfold getMin getMax bundleResolution
    have hr2 : (0 : K) < 1 / 2 * g.r := by positivity
    push_cast
    constructor
    · calc _ ≤ (toBundleIndex g.r p a : K) * (1 / 2 * g.r) := mul_le_mul_of_nonneg_right h1' hr2.le
        _ = (toBundleIndex g.r p a : K) * (g.r / 2) := by ring
        _ ≤ p a := hin.1
    · calc p a < ((toBundleIndex g.r p a : K) + 1) * (g.r / 2) := hin.2
        _ = ((toBundleIndex g.r p a : K) + 1) * (1 / 2 * g.r) := by ring
        _ ≤ _ := mul_le_mul_of_nonneg_right (by linarith) hr2.le

/-- Non-vacuity: the sample history is a non-empty reachable dynamic map. -/
example : ∃ st, Reachable (.dynamic 0 0) sampleGeo (fun _ => true) st ∧ st.bundleIndices ≠ [] := by
  obtain ⟨st, h⟩ := sample_runs 0 0 (fun _ => true)
  have hR : Reachable (.dynamic 0 0) sampleGeo (fun _ => true) st := ⟨sampleOps, h⟩
  refine ⟨st, hR, ?_⟩
  have h4 := (gridRun_spec (octreeLawful 2) sampleGeo true _ sampleOps _ st (Kind.init_rinv (.dynamic 0 0)) h).2.2.2
  have := h4 ![1/5, 1/5] (by simp [accOps, accList, sampleOps, sampleGeo, Abs.valid])
  rw [mem_allocated_iff] at this
  exact List.ne_nil_of_mem ((mem_bundleIndices _ st hR.rinv.inv _).2 this)

/-! ### C14 -/

omit [IsStrictOrderedRing K] in
/-- **C14** (allocation). On every reachable map, `getDistributionBundle(bi)` returns null exactly for invalid indices (and then changes nothing); for valid ones it returns
the bundle stored at `bi` afterwards, keeps every other bundle, keeps the contents of every distribution (a newly created one is empty), and calling it again returns the
same bundle and changes nothing at all. -/
theorem C14_allocation_local_idempotent (k : Kind d) (g : Geo K d) (exp : Multiset (Pt K d) → Bool) (st : St k.backend (Multiset (Pt K d)))
    (h : Reachable k g exp st) (bi : Idx d) (ob : Option Bundle) (st' : St k.backend (Multiset (Pt K d)))
    (h' : getDistributionBundle k.dyn bi st = some (ob, st')) :
    (ob = none ↔ st.valid k.dyn bi = false) ∧ (ob = none → st' = st) ∧ (∀ b, ob = some b → st'.bundle bi = some b) ∧
    (∀ bj, bj ≠ bi → st'.bundle bj = st.bundle bj) ∧
    (∀ c i, (st'.content c i).getD 0 = (st.content c i).getD 0) ∧ (∀ c i s, st.content c i = some s → st'.content c i = some s) ∧
    (∀ b, st.bundle bi = some b → ob ≠ none → ob = some b ∧ st' = st) ∧
    getDistributionBundle k.dyn bi st' = some (ob, st') := by
  have hI := h.rinv
  unfold getDistributionBundle at h'
  by_cases hv : st.valid k.dyn bi = true
  · rw [if_pos hv] at h'
    cases hg : getAllocate k.dyn bi st with
    | none => rw [hg] at h'; cases h'
    | some p =>
      rw [hg] at h'; cases h'
      have hgood := good_of_getAllocate k.lawful k.dyn bi st hI.inv p hg
      obtain ⟨b, st1, x1, x2, x3, x4, x5, x6, x7⟩ := getAllocate_spec k.lawful k.dyn bi st hI.inv hgood
      rw [hg] at x1; cases x1
      have hG : Abs.Grow k.dyn st.abs st1.abs := by rw [x3]; exact .alloc bi .refl hgood
      refine ⟨by simp [hv], by simp, ?_, x6, ?_, fun c i s hs => hG.content c i s hs, ?_, ?_⟩
      · intro b' hb'; cases hb'; exact x4
      · exact fun c i => hG.val c i
      · intro b' hb' _
        obtain ⟨y1, y2⟩ := x5 b' hb'
        exact ⟨by rw [y1], y2⟩
      · unfold getDistributionBundle
        have hv' : st1.valid k.dyn bi = true := by rw [valid_abs, hG.valid]; exact hv
        rw [if_pos hv']
        obtain ⟨b2, st2, z1, _, _, _, z5, _⟩ := getAllocate_spec k.lawful k.dyn bi st1 x2 ((hG.good bi).2 hgood)
        obtain ⟨y1, y2⟩ := z5 b x4
        rw [z1, y1, y2]
  · rw [if_neg hv] at h'
    cases h'
    refine ⟨by simpa using hv, fun _ => rfl, by simp, fun _ _ => rfl, fun _ _ => rfl, fun _ _ _ h => h, by simp, ?_⟩
    unfold getDistributionBundle; rw [if_neg hv]

omit [IsStrictOrderedRing K] [FloorRing K] [LinearOrder K] [Field K] in
/-- **C14** (lookup): `get` returns the stored bundle and leaves the map as it is. -/
theorem C14_get_pure {B : Backend d} {D : Type} [Inhabited D] (dyn : Bool) (exp : D → Bool) (bi : Idx d) (st st' : St B D)
    (h : coreStep dyn exp (.get bi) st = some st') :
    st' = st ∧ getBundle dyn bi st = some (if st.valid dyn bi then st.bundle bi else none) := by
  simp only [coreStep, getBundle] at h
  unfold getBundle bundle Backend.look
  split at h
  · split at h
    · rename_i h1 h2
      cases h
      rw [if_pos h1, if_pos h1, if_pos h2, if_pos h2]
      exact ⟨rfl, rfl⟩
    · cases h
  · rename_i h1
    cases h
    rw [if_neg h1, if_neg h1]
    exact ⟨rfl, rfl⟩

/-! ### C15 -/

omit [IsStrictOrderedRing K] in
/-- **C15.** In every reachable map each allocated bundle has `2^d` non-null entries, entry `c` being the object stored in storage `c` at the generated index. -/
theorem C15_bundles_complete (k : Kind d) (g : Geo K d) (exp : Multiset (Pt K d) → Bool) (st : St k.backend (Multiset (Pt K d)))
    (h : Reachable k g exp st) (bi : Idx d) (b : Bundle) (hb : st.bundle bi = some b) (c : Nat) (hc : c < 2 ^ d) :
    ∃ a, b.data c = some a ∧ st.dist c (generateIndex bi c) = some a :=
  h.rinv.inv.complete bi b hb c hc

omit [IsStrictOrderedRing K] in
/-- **C15** (sharing): two bundles have the same object at entry `c` iff their generated indices agree, and entries of different storages are different objects. -/
theorem C15_sharing_iff (k : Kind d) (g : Geo K d) (exp : Multiset (Pt K d) → Bool) (st : St k.backend (Multiset (Pt K d)))
    (h : Reachable k g exp st) (bi bj : Idx d) (b b' : Bundle) (hb : st.bundle bi = some b) (hb' : st.bundle bj = some b')
    (c c' : Nat) (hc : c < 2 ^ d) (hc' : c' < 2 ^ d) :
    b.data c = b'.data c' ↔ c = c' ∧ generateIndex bi c = generateIndex bj c' := by
  have hI := h.rinv.inv
  obtain ⟨a, h1, h2⟩ := hI.complete bi b hb c hc
  obtain ⟨a', h1', h2'⟩ := hI.complete bj b' hb' c' hc'
  rw [h1, h1']
  constructor
  · intro e
    cases e
    exact hI.inj c _ c' _ a h2 h2'
  · rintro ⟨rfl, e⟩
    rw [e, h2'] at h2
    exact h2.symm

omit [IsStrictOrderedRing K] in
/-- **C15** (no null dereference): on every reachable map, an update of any bundle index the storages cover runs to completion; the null-pointer outcome does not occur. -/
theorem C15_update_never_null (k : Kind d) (g : Geo K d) (exp : Multiset (Pt K d) → Bool) (st : St k.backend (Multiset (Pt K d)))
    (h : Reachable k g exp st) (bi : Idx d) (hok : k.backend.ok st.bundles bi = true)
    (hokD : ∀ c, c < 2 ^ d → k.backend.ok (st.storage c) (generateIndex bi c) = true) (f : Multiset (Pt K d) → Multiset (Pt K d)) :
    ∃ st', update k.dyn bi f st = some st' := by
  obtain ⟨st', h1, _⟩ := update_spec k.lawful k.dyn bi f st h.rinv.inv ⟨hok, hokD⟩
  exact ⟨st', h1⟩

/-- Non-vacuity for C14 and C15: in the sample map two different bundles exist which share a distribution. -/
example : ∃ st, Reachable (.dynamic 0 0) sampleGeo (fun _ => true) st ∧
    ∃ bi bj b b', bi ≠ bj ∧ st.bundle bi = some b ∧ st.bundle bj = some b' ∧ b.data 1 = b'.data 1 := by
  obtain ⟨st, h⟩ := sample_runs 0 0 (fun _ => true)
  have hR : Reachable (.dynamic 0 0) sampleGeo (fun _ => true) st := ⟨sampleOps, h⟩
  obtain ⟨b0, hb0⟩ : ∃ b, st.bundle ![0, 0] = some b := by
    have h4 := (gridRun_spec (octreeLawful 2) sampleGeo true _ sampleOps _ st (Kind.init_rinv (.dynamic 0 0)) h).2.2.2
    have := h4 ![1/5, 1/5] (by simp [accOps, accList, sampleOps, sampleGeo, Abs.valid])
    have e : toBundleIndex sampleGeo.r ![1/5, 1/5] = ![0, 0] := by
      funext a; fin_cases a <;> norm_num [toBundleIndex, bundleResolutionInv, bundleResolution, sampleGeo]
    rw [mem_allocated_iff, e] at this
    exact Option.isSome_iff_exists.1 this
  have hall : ∃ s, getDistributionBundle true ![-1, 0] st = some s := by
    have hg : st.abs.Good ![-1, 0] := (hR.keeps.good _).2 (dynamic_good _ 0 0 _ (by decide))
    obtain ⟨b, s, hs, _⟩ := getAllocate_spec (octreeLawful 2) true ![-1, 0] st hR.rinv.inv hg
    refine ⟨(some b, s), ?_⟩
    unfold getDistributionBundle
    rw [if_pos (show st.valid true _ = true from rfl), hs]
  obtain ⟨⟨ob, s⟩, hs⟩ := hall
  obtain ⟨c1, _, c3, c4, _⟩ := C14_allocation_local_idempotent (.dynamic 0 0) sampleGeo (fun _ => true) st hR ![-1, 0] ob s hs
  have hRs : Reachable (.dynamic 0 0) sampleGeo (fun _ => true) s :=
    hR.step (.core (.bundleAt ![-1, 0])) (by
      show (getDistributionBundle true ![-1, 0] st).map Prod.snd = some s
      rw [hs]; rfl)
  cases ob with
  | none => exact absurd (c1.1 rfl) (by simp [St.valid, Kind.dyn])
  | some b1 =>
    have hb0' : s.bundle ![0, 0] = some b0 := by rw [c4 ![0, 0] (by decide)]; exact hb0
    refine ⟨s, hRs, ![0, 0], ![-1, 0], b0, b1, by decide, hb0', c3 b1 rfl, ?_⟩
    exact (C15_sharing_iff (.dynamic 0 0) sampleGeo (fun _ => true) s hRs _ _ _ _ hb0' (c3 b1 rfl) 1 1 (by decide) (by decide)).2
      ⟨rfl, by decide⟩

end
end Ndt
