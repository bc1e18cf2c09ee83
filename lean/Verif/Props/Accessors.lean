import Verif.Model.Accessors
import Verif.Props.Expand
import Verif.Props.Raster
import Verif.Proofs.GridmapMore

/-! Property theorems C72 and C73: geometry accessors and `validate`. -/

namespace Ndt
open St

/-! ### C72 -/

section
variable {K : Type} [Field K] [LinearOrder K] [IsStrictOrderedRing K] {d : Nat} {D : Type} [Inhabited D]

omit [Inhabited D] in
theorem bundleCount_eq {B : Backend d} (st : St B D) (a : Fin d) (h : st.minB a ≤ st.maxB a) (h' : st.maxB a - st.minB a < 2147483647) :
    st.bundleCount a = some (st.maxB a - st.minB a + 1) := by
  unfold bundleCount intSub
  rw [if_pos (by omega)]
  simp only
  rw [if_pos (by omega)]

/-- **C72** (dynamic maps, partial). On every non-empty dynamic map `getSizeM()` is the extent from `getMin()` to `getMax()` in every dimension, `getWidth()` and `getHeight()` are its first two components. `getSize()` is one less
than the number of bundles between the bounds (missing: it covers the extent, see `C72_dynamic_size_refuted`). -/
theorem C72_dynamic_partial (gb : Nat → Nat) (gb' : Nat) (exp : D → Bool) (st : St (octreeBackend d) D) (hR : MapReachable (.dynamic gb gb') exp st)
    (hne : st.bundleIndices ≠ []) (r : K) :
    (∀ a, getSizeM (.dynamic gb gb') r st a = some (st.getMax r a - st.getMin r a)) ∧
    (∀ h : 0 < d, st.getWidth r h = some (st.getMax r ⟨0, h⟩ - st.getMin r ⟨0, h⟩)) ∧
    (∀ h : 1 < d, st.getHeight r h = some (st.getMax r ⟨1, h⟩ - st.getMin r ⟨1, h⟩)) ∧
    ∀ a, ∃ n : Nat, getSize (.dynamic gb gb') st a = some n ∧ (n : Int) + 1 = st.maxB a - st.minB a + 1 := by
  have hb := dyn_bounds hR.spec.1 hne
  have key : ∀ a, (st.bundleCount a).map (fun (n : Int) => (n : K) * bundleResolution r) = some (st.getMax r a - st.getMin r a) := by
    intro a
    rw [bundleCount_eq st a (hb a).2.1 (by have := hb a; omega), Option.map_some]
    unfold getMax getMin
    push_cast
    congr 1; ring
  refine ⟨fun a => key a, fun h => key _, fun h => key _, fun a => ?_⟩
  have := hb a
  refine ⟨((st.maxB a - st.minB a) % 2 ^ 64).toNat, ?_, ?_⟩
  · unfold getSize intSub
    dsimp only
    rw [if_pos (by omega), Option.map_some]
  · rw [Int.emod_eq_of_lt (by omega) (by omega), Int.toNat_of_nonneg (by omega)]

/-- **C72** (static maps, partial). On every static map whose index range fits into `int`, the number of cells times the resolution is the extent from `getMin()` to `getMax()`, `getWidth()` and `getHeight()` are its first two components, and
`getBundleSize()` is the number of bundles between the bounds. `getSizeM()` is larger by one resolution. -/
theorem C72_static_partial (size : Fin d → Nat) (lo : Idx d) (exp : D → Bool) (st : St (arrayBackend d) D) (hR : MapReachable (.static size lo) exp st)
    (hs : ∀ a, 0 < size a ∧ 2 * size a ≤ 2147483647) (r : K) :
    (∀ a, ∃ n : Nat, getSize (.static size lo) st a = some n ∧ (n : K) * r = st.getMax r a - st.getMin r a) ∧
    (∀ h : 0 < d, st.getWidth r h = some (st.getMax r ⟨0, h⟩ - st.getMin r ⟨0, h⟩)) ∧
    (∀ h : 1 < d, st.getHeight r h = some (st.getMax r ⟨1, h⟩ - st.getMin r ⟨1, h⟩)) ∧
    (∀ a, (getBundleSize size a : Int) = st.maxB a - st.minB a + 1) ∧
    ∀ a, getSizeM (.static size lo) r st a = some (st.getMax r a - st.getMin r a + r) := by
  obtain ⟨e1, e2⟩ := hR.spec.2.static rfl
  have e1' : st.minB = lo := e1
  have e2' : st.maxB = fun a => lo a + (size a * 2 : Nat) - 1 := e2
  have hm : ∀ a, st.getMax r a - st.getMin r a = (size a : K) * r := by
    intro a
    unfold getMax getMin bundleResolution
    rw [e1', e2']
    push_cast; ring
  have key : ∀ a, (st.bundleCount a).map (fun (n : Int) => (n : K) * bundleResolution r) = some (st.getMax r a - st.getMin r a) := by
    intro a
    have := hs a
    rw [bundleCount_eq st a (by rw [e1', e2']; push_cast; omega) (by rw [e1', e2']; push_cast; omega), Option.map_some]
    unfold getMax getMin
    push_cast
    congr 1; ring
  refine ⟨fun a => ⟨size a, rfl, (hm a).symm⟩, fun h => key _, fun h => key _, fun a => ?_, fun a => ?_⟩
  · rw [e1', e2']; unfold getBundleSize; push_cast; ring
  · rw [hm]
    show some _ = some _
    congr 1; push_cast; ring

/-- **C72** (refuted for static maps). `getSizeM()` of a static map never is the extent of the map. -/
theorem C72_static_refuted (size : Fin d → Nat) (lo : Idx d) (exp : D → Bool) (st : St (arrayBackend d) D) (hR : MapReachable (.static size lo) exp st)
    (r : K) (hr : 0 < r) (a : Fin d) : getSizeM (.static size lo) r st a ≠ some (st.getMax r a - st.getMin r a) := by
  obtain ⟨e1, e2⟩ := hR.spec.2.static rfl
  have e1' : st.minB = lo := e1
  have e2' : st.maxB = fun a => lo a + (size a * 2 : Nat) - 1 := e2
  intro h
  have h' := Option.some.inj h
  unfold getMax getMin bundleResolution at h'
  rw [e1', e2'] at h'
  push_cast at h'
  have : r = 0 := by linear_combination h'
  exact hr.ne' this

/-- **C72** (refuted for dynamic maps). In every dimension: a dynamic map with one bundle has a positive extent, but `getSize()` is 0. -/
theorem C72_dynamic_size_refuted (gb : Nat → Nat) (gb' : Nat) (exp : D → Bool) (r : K) (hr : 0 < r) (a : Fin d) :
    ∃ st : St (octreeBackend d) D, MapReachable (.dynamic gb gb') exp st ∧ 0 < st.getMax r a - st.getMin r a ∧ getSize (.dynamic gb gb') st a = some 0 := by
  have hI : RInv (octreeLawful d) true ((Kind.dynamic gb gb').init D) := (Kind.dynamic (d := d) gb gb').init_rinv
  obtain ⟨st, hst, hinv, hA⟩ := (updateList_refines (octreeLawful d) true [((fun _ => 0 : Idx d), (id : D → D))] _ hI.inv).1 (by
    intro e he
    rw [List.mem_singleton.1 he]
    exact dynamic_good D gb gb' _ (fun a => by show (-32768 : Int) ≤ 0 ∧ (0 : Int) ≤ 32767; decide))
  have hR : MapReachable (.dynamic gb gb') exp st := .updates (k := .dynamic gb gb') _ _ st .init (fun _ _ => rfl) hst
  have h1 : st.minB a = 0 := by
    have h0 : ((Kind.dynamic gb gb').init D).abs.flags (fun _ : Fin d => (0 : Int)) = none := Kind.init_flags _ _
    show st.abs.minB a = 0
    rw [hA]
    show (Abs.alloc true _ _).minB a = 0
    unfold Abs.alloc
    rw [if_neg (by rw [h0]; simp)]
    rfl
  have h2 : st.maxB a = 0 := by
    have h0 : ((Kind.dynamic gb gb').init D).abs.flags (fun _ : Fin d => (0 : Int)) = none := Kind.init_flags _ _
    show st.abs.maxB a = 0
    rw [hA]
    show (Abs.alloc true _ _).maxB a = 0
    unfold Abs.alloc
    rw [if_neg (by rw [h0]; simp)]
    rfl
  refine ⟨st, hR, ?_, ?_⟩
  · unfold getMax getMin bundleResolution
    rw [h1, h2]; push_cast; linarith
  · unfold getSize intSub
    dsimp only
    rw [h1, h2]; rfl

omit [LinearOrder K] [IsStrictOrderedRing K] in
/-- **C72** (refuted for empty maps). The sizes of an empty dynamic map are undefined: the difference of its initial bounds overflows. -/
theorem C72_empty_refuted (gb : Nat → Nat) (gb' : Nat) (r : K) (a : Fin d) :
    getSizeM (.dynamic gb gb') r ((Kind.dynamic (d := d) gb gb').init D) a = none ∧ getSize (.dynamic gb gb') ((Kind.dynamic (d := d) gb gb').init D) a = none := by
  constructor <;> rfl

/-- non-vacuity: a static map of 3 x 1 cells has 3 cells and getSizeM() 4; a dynamic map with the bundle 0 exists and is not empty -/
example : MapReachable (.static ![3, 1] ![-3, 1]) (fun _ => true) ((Kind.static ![3, 1] ![-3, 1]).init (Multiset (Pt ℚ 2))) ∧
    (∀ a, 0 < (![3, 1] : Fin 2 → Nat) a ∧ 2 * (![3, 1] : Fin 2 → Nat) a ≤ 2147483647) ∧
    getSizeM (.static ![3, 1] ![-3, 1]) (1 : ℚ) ((Kind.static ![3, 1] ![-3, 1]).init (Multiset (Pt ℚ 2))) 0 = some 4 := by
  refine ⟨.init, by decide, ?_⟩
  show some _ = some _
  norm_num

example : ∃ st : St (octreeBackend 2) (Multiset (Pt ℚ 2)), MapReachable (.dynamic 0 0) (fun _ => true) st ∧ st.bundleIndices ≠ [] := by
  have hI : RInv (octreeLawful 2) true ((Kind.dynamic 0 0).init (Multiset (Pt ℚ 2))) := (Kind.dynamic (d := 2) 0 0).init_rinv
  obtain ⟨st, hst, hinv, hA⟩ := (updateList_refines (octreeLawful 2) true [(![0, 3], (id : Multiset (Pt ℚ 2) → _))] _ hI.inv).1 (by
    intro e he
    rw [List.mem_singleton.1 he]
    exact dynamic_good _ 0 0 _ (by decide))
  have hR : MapReachable (.dynamic 0 0) (fun _ => true) st := .updates (k := .dynamic 0 0) _ _ st .init (fun _ _ => rfl) hst
  refine ⟨st, hR, ?_⟩
  have : (![0, 3] : Idx 2) ∈ st.bundleIndices := by
    rw [mem_bundleIndices (octreeLawful 2) st hinv, ← mem_allocated_iff, hA]
    show _ ∈ (Abs.upd true _ _ _).allocated
    rw [Abs.allocated_upd]
    exact Set.mem_insert _ _
  exact List.ne_nil_of_mem this

end

/-! ### C73 -/

section
variable {K : Type} [Field K] [LinearOrder K] [IsStrictOrderedRing K] [FloorRing K] {d : Nat}

omit [LinearOrder K] [IsStrictOrderedRing K] [FloorRing K] in
theorem toPoint_eq (q : Pt K 2) (p : Pt K d) (hp : ∀ a : Fin d, p a = if a.1 = 0 then q 0 else if a.1 = 1 then q 1 else 0) : toPoint d q = p := by
  funext a
  rw [hp a]
  unfold toPoint
  by_cases h0 : a.1 = 0
  · rw [dif_neg (by omega), if_pos h0]; congr 1; exact Fin.ext h0
  · by_cases h1 : a.1 = 1
    · rw [dif_neg (by omega), if_neg h0, if_pos h1]; congr 1; exact Fin.ext h1
    · rw [dif_pos (by omega), if_neg h0, if_neg h1]

omit [IsStrictOrderedRing K] [FloorRing K] in
theorem accepted_append (g : Geo K d) (k : Kind d) (l l' : List (GridOp K d)) : Spec.accepted g k (l ++ l') = Spec.accepted g k l + Spec.accepted g k l' := by
  induction l with
  | nil => simp [Spec.accepted]
  | cons op l ih =>
    cases op with
    | insert pose cloud => simp only [List.cons_append, Spec.accepted, ih, add_assoc]
    | core op => simp only [List.cons_append, Spec.accepted, ih]

/-- **C73.** For every reachable map and every 2D pose with translation `q`; `p` is the point `(q, 0)` of the map. `validate` returns true iff inserting (the finite point) `p` changes the content of some distribution, i.e. iff the point is recorded; it does so iff
`p` lies in the region of the map. If it returns false, looking up `p` gives no bundle, and the map samples to 0 at `p`. -/
theorem C73_validate (k : Kind d) (g : Geo K d) (hr : 0 < g.r) (exp : Multiset (Pt K d) → Bool) (ops : List (GridOp K d)) (st : St k.backend (Multiset (Pt K d)))
    (h : gridRun g k.dyn exp ops (k.init _) = some st) (q : Pt K 2) (p : Pt K d) (hp : ∀ a : Fin d, p a = if a.1 = 0 then q 0 else if a.1 = 1 then q 1 else 0)
    (hn : g.normal p = true) :
    (validate g k.dyn q st = true ↔ Spec.Region g.r k (g.toMap p)) ∧
    (∀ st', gridInsert g k.dyn id [p] st = some st' →
      (validate g k.dyn q st = true ↔ ∃ c i, c < 2 ^ d ∧ (st'.content c i).getD 0 ≠ (st.content c i).getD 0)) ∧
    (validate g k.dyn q st = false → getAtPoint g k.dyn p st = some none ∧ gridInsert g k.dyn id [p] st = some st ∧
      ∀ dens : Multiset (Pt K d) → Pt K d → K, sampleNNAt g k.dyn dens p st = some 0 ∧ sampleBilinearAt g k.dyn dens p st = some 0) := by
  classical
  have hkeep : Abs.Keeps k.dyn (k.init _).abs st.abs := (gridRun_spec k.lawful g k.dyn exp ops _ st k.init_rinv h).2.1
  have hval : validate g k.dyn q st = st.valid k.dyn (toBundleIndex g.r (g.toMap p)) := by
    unfold validate; rw [toPoint_eq q p hp]
  have hreg : validate g k.dyn q st = true ↔ Spec.Region g.r k (g.toMap p) := by
    rw [hval, valid_abs, hkeep.valid]
    exact valid_iff_region _ g.r hr k (g.toMap p)
  refine ⟨hreg, ?_, ?_⟩
  · intro st' hi
    have hrun : gridRun g k.dyn exp (ops ++ [.insert id [p]]) (k.init _) = some st' := by
      rw [gridRun_append, h, Option.bind_some]
      show (gridInsert g k.dyn id [p] st).bind (gridRun g k.dyn exp []) = _
      rw [hi]; rfl
    have hacc : Spec.accepted g k [.insert id [p]] = if Spec.Region g.r k (g.toMap p) then {g.toMap p} else 0 := by
      simp only [Spec.accepted, Spec.acceptedPoints, add_zero, List.map_cons, List.map_nil, id_eq, List.filter_cons, hn, if_true, List.filter_nil]
      show Multiset.filter _ ({g.toMap p} : Multiset (Pt K d)) = _
      rw [Multiset.filter_singleton]; rfl
    have hc : ∀ c i, c < 2 ^ d → (st'.content c i).getD 0 = (st.content c i).getD 0 + (if Spec.Region g.r k (g.toMap p) then ({g.toMap p} : Multiset (Pt K d)) else 0).filter (Spec.InCell g.r c i) := by
      intro c i hc
      rw [C10_contents_exact k g hr exp _ st' hrun c hc i, C10_contents_exact k g hr exp _ st h c hc i, accepted_append, hacc, Multiset.filter_add]
    rw [hreg]
    constructor
    · intro hR
      refine ⟨0, generateIndex (toBundleIndex g.r (g.toMap p)) 0, Nat.two_pow_pos d, ?_⟩
      rw [hc 0 _ (Nat.two_pow_pos d), if_pos hR, Multiset.filter_singleton, if_pos ((C01_point_in_selected_cell hr _ 0 _).1 rfl)]
      intro e
      have := add_eq_left.1 e
      exact Multiset.singleton_ne_zero _ this
    · rintro ⟨c, i, hc', hne⟩
      by_contra hR
      rw [hc c i hc', if_neg hR] at hne
      exact hne (by simp)
  · intro hf
    rw [hval] at hf
    refine ⟨?_, ?_, fun dens => ?_⟩
    · unfold getAtPoint getBundle
      rw [hf]; rfl
    · unfold gridInsert collect
      simp only [List.foldl_cons, List.foldl_nil, id_eq, hn, if_true, hf, Bool.false_eq_true, if_false, List.map_nil]
      rfl
    · constructor
      · unfold sampleNNAt sampleNN sampleWith; rw [hf]; rfl
      · unfold sampleBilinearAt sampleBilinear sampleWith; rw [hf]; rfl

/-- non-vacuity: on a static map of 3 x 1 cells with minimum index (-3, 1), a pose at (1/5, 7/10) is valid and one at (1/5, 1/5) is not -/
example : ∃ st, gridRun sampleGeo false (fun _ => true) sampleOps ((Kind.static ![3, 1] ![-3, 1]).init (Multiset (Pt ℚ 2))) = some st ∧
    validate sampleGeo false ![1/5, 7/10] st = true ∧ validate sampleGeo false ![1/5, 1/5] st = false := by
  refine ⟨((gridRun sampleGeo false (fun _ => true) sampleOps ((Kind.static ![3, 1] ![-3, 1]).init (Multiset (Pt ℚ 2)))).get (by decide +kernel)), (Option.some_get _).symm, ?_, ?_⟩ <;> decide +kernel

end
end Ndt
