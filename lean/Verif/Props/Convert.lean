import Verif.Proofs.Convert
import Verif.Props.Serial
import Verif.Props.OccMap
import Mathlib.Tactic.Ring
import Mathlib.Tactic.Linarith

/-! Property theorems C38, C39, C53: conversions between dynamic and static maps. -/

namespace Ndt
open St

theorem floor_half (m : Int) : ⌊(m : ℚ) / 2⌋ = m / 2 := by
  have := Rat.floor_intCast_div_natCast m 2
  simpa using this

theorem ceil_half (m : Int) : ⌈(m : ℚ) / 2⌉ = (m + 1) / 2 := by
  have h : (m : ℚ) / 2 = -(((-m : Int) : ℚ) / 2) := by push_cast; ring
  rw [h, Int.ceil_neg, floor_half]
  omega

section
variable {d : Nat} {D : Type} [Inhabited D] {g : Nat → Nat} {g' : Nat} {exp : D → Bool}

theorem convSize_eq {B : Backend d} (st : St B D) (a : Fin d) (h : -32768 ≤ st.minB a ∧ st.minB a ≤ st.maxB a ∧ st.maxB a ≤ 32767) :
    ∃ n : Nat, convSize st a = some n ∧ 2 * (n : Int) = (st.maxB a + 1) / 2 * 2 + 2 - st.minB a / 2 * 2 ∧ convMin st a = st.minB a / 2 * 2 := by
  have h1 : convMin st a = st.minB a / 2 * 2 := by unfold convMin; rw [floor_half]
  have h2 : convMax st a = (st.maxB a + 1) / 2 * 2 + 1 := by unfold convMax; rw [ceil_half]
  have h3 : intSub (convMax st a) (convMin st a) = some (convMax st a - convMin st a) := by
    unfold intSub; rw [if_pos (by rw [h1, h2]; omega)]
  have h4 : ⌈((convMax st a - convMin st a : Int) : ℚ) / 2⌉ = (convMax st a - convMin st a + 1) / 2 := ceil_half _
  refine ⟨((convMax st a - convMin st a + 1) / 2).toNat, ?_, ?_, h1⟩
  · unfold convSize
    rw [h3]
    simp only
    rw [h4, if_pos (by rw [h1, h2]; omega)]
  · rw [h1, h2]; omega

/-- conversion to a static map, for maps in a consistent state -/
theorem convert_static (st : St (octreeBackend d) D) (hR : RInv (octreeLawful d) true st) (hne : st.bundleIndices ≠ []) (conv : D → D → D)
    (hg : ∀ c < 2 ^ d, ∀ i x, st.content c i = some x → conv x default = x ∧ conv x x = x) :
    ∃ size st', toStatic conv st = some (size, st') ∧ Spec.Converted st st' ∧ (∀ bi ∈ st.bundleIndices, st'.valid false bi = true) ∧
      (∀ a, st'.minB a ≤ st.minB a ∧ st.maxB a < st'.maxB a ∧ st'.minB a % 2 = 0) ∧
      (∀ i, st'.valid false i = true → st'.abs.Good i) ∧
      (∀ exp' op, (coreStep false exp' op st').isSome = true) ∧ (∀ i f, st'.valid false i = true → (update false i f st').isSome = true) := by
  have hI : RInv (octreeLawful d) true st := hR
  have hb := dyn_bounds hR hne
  have hsz : ∀ a, ∃ n : Nat, convSize st a = some n ∧ 2 * (n : Int) = (st.maxB a + 1) / 2 * 2 + 2 - st.minB a / 2 * 2 ∧ convMin st a = st.minB a / 2 * 2 :=
    fun a => convSize_eq st a (hb a)
  have hdef : ∀ a, (convSize st a).isSome = true := fun a => by obtain ⟨n, h, _⟩ := hsz a; rw [h]; rfl
  let size : Fin d → Nat := fun a => (convSize st a).getD 0
  have hsize : ∀ a, 2 * (size a : Int) = (st.maxB a + 1) / 2 * 2 + 2 - st.minB a / 2 * 2 ∧ convMin st a = st.minB a / 2 * 2 := by
    intro a
    obtain ⟨n, h1, h2⟩ := hsz a
    have : size a = n := by show (convSize st a).getD 0 = n; rw [h1]; rfl
    rw [this]; exact h2
  let k : Kind d := .static size (convMin st)
  have hval : ∀ bi ∈ st.bundleIndices, (k.init D).abs.valid false bi = true := by
    intro bi hbi
    refine (Kind.static_valid size (convMin st) bi).2 fun a => ?_
    have hal : bi ∈ st.abs.allocated := (mem_allocated_iff st bi).2 ((mem_bundleIndices (octreeLawful d) st hI.inv bi).1 hbi)
    rcases hI.ainv.bounds rfl with ⟨he, _⟩ | ⟨_, ht⟩
    · rw [he] at hal; exact absurd hal (Set.notMem_empty _)
    · obtain ⟨⟨_, h1⟩, _, h2⟩ := ht a
      have h1' : st.minB a ≤ bi a := h1 ⟨bi, hal, rfl⟩
      have h2' : bi a ≤ st.maxB a := h2 ⟨bi, hal, rfl⟩
      obtain ⟨e1, e2⟩ := hsize a
      rw [e2]; omega
  obtain ⟨st', h1, h2, h3, h4, _⟩ := convert_spec (octreeLawful d) st true hI k conv hg (fun bi hbi => ⟨hval bi hbi, Kind.static_good _ _ _ (hval bi hbi)⟩) (fun h => by cases h)
  have hmin : st'.minB = convMin st := (h4.bounds rfl).1
  have hmax : st'.maxB = fun a => convMin st a + (size a * 2 : Nat) - 1 := (h4.bounds rfl).2
  have hvv : ∀ i, st'.valid false i = (k.init D).abs.valid false i := by
    intro i
    show (false || decide (∀ a, st'.minB a ≤ i a ∧ i a < st'.maxB a)) = _
    rw [hmin, hmax]
    rfl
  have hgood : ∀ i, st'.valid false i = true → st'.abs.Good i := by
    intro i hi
    rw [hvv] at hi
    have hG := Kind.static_good _ _ _ hi
    exact ⟨by rw [h4.okB]; exact hG.1, fun c hc => by rw [h4.okD]; exact hG.2 c hc⟩
  refine ⟨size, st', ?_, h3, ?_, ?_, hgood, ?_, ?_⟩
  · unfold toStatic
    rw [if_pos hdef]
    have : convertList false conv (bundleList st) (staticInit d D (fun a => (convSize st a).getD 0) (convMin st)) = some st' := h1
    simp only [this]
    rfl
  · intro bi hbi
    rw [hvv]; exact hval bi hbi
  · intro a
    obtain ⟨e1, e2⟩ := hsize a
    rw [hmin, hmax]
    simp only
    rw [e2]
    push_cast
    omega
  · intro exp' op
    obtain ⟨s, hs⟩ := coreStep_total (arrayLawful d) false exp' op st' h2 hgood
    rw [hs]; rfl
  · intro i f hi
    obtain ⟨s, hs, _⟩ := update_spec (arrayLawful d) false i f st' h2.inv (hgood i hi)
    rw [hs]; rfl

/-- **C38.** For every reachable non-empty dynamic map, the conversion to a static map is defined; the static map has exactly the source bundles, all of them inside its valid range, with equal contents;
and no later operation on a bundle that it accepts accesses an array out of range. `conv` is the copy of one distribution, which for the values in the map must
reproduce the value (see `C38_copies`). -/
theorem C38_dynamic_to_static (st : St (octreeBackend d) D) (hR : MapReachable (.dynamic g g') exp st) (hne : st.bundleIndices ≠ []) (conv : D → D → D)
    (hg : ∀ c < 2 ^ d, ∀ i x, st.content c i = some x → conv x default = x ∧ conv x x = x) :
    ∃ size st', toStatic conv st = some (size, st') ∧ Spec.Converted st st' ∧ (∀ bi ∈ st.bundleIndices, st'.valid false bi = true) ∧
      (∀ a, st'.minB a ≤ st.minB a ∧ st.maxB a < st'.maxB a ∧ st'.minB a % 2 = 0) ∧
      (∀ i, st'.valid false i = true → st'.abs.Good i) ∧
      (∀ exp' op, (coreStep false exp' op st').isSome = true) ∧ (∀ i f, st'.valid false i = true → (update false i f st').isSome = true) :=
  convert_static st hR.spec.1 hne conv hg

/-- **C39.** For every reachable map of either kind whose bundles are in the index range of an octree, the conversion to a dynamic map is defined and has exactly the source bundles with equal contents, and
its bounds are tight. -/
theorem C39_to_dynamic {k : Kind d} (st : St k.backend D) (hR : MapReachable k exp st) (hin : ∀ bi ∈ st.bundleIndices, Spec.InRange bi) (conv : D → D → D)
    (hg : ∀ c < 2 ^ d, ∀ i x, st.content c i = some x → conv x default = x ∧ conv x x = x) (f : Nat → Nat) (f' : Nat) :
    ∃ st', toDynamic f f' conv st = some st' ∧ Spec.Converted st st' ∧ Spec.TightBounds {bi | bi ∈ st.bundleIndices} st'.minB st'.maxB := by
  have hI : RInv k.lawful k.dyn st := hR.spec.1
  obtain ⟨st', h1, h2, h3, _, h5, _⟩ := convert_spec k.lawful st k.dyn hI (.dynamic f f') conv hg
    (fun bi hbi => ⟨rfl, decide_eq_true (hin bi hbi), fun c hc => decide_eq_true fun a => by
      have hb := hin bi hbi a
      have hg : generateIndex bi c a = if c.testBit a.1 then (bi a + 1) / 2 else bi a / 2 := getIndexInner_eq _ _ _
      rw [hg]; split <;> omega⟩)
    (fun _ bi hbi a => by have := hin bi hbi a; omega)
  refine ⟨st', h1, h3, ?_⟩
  have : {bi | bi ∈ st.bundleIndices} = st'.abs.allocated := by
    rw [h5]
    ext bi
    rw [mem_allocated_iff]
    exact mem_bundleIndices k.lawful st hI.inv bi
  rw [this]
  exact h2.ainv.bounds rfl

theorem tight_unique {S : Set (Fin d → Int)} {lo hi lo' hi' : Fin d → Int} (h : Spec.TightBounds S lo hi) (h' : Spec.TightBounds S lo' hi') : lo = lo' ∧ hi = hi' := by
  rcases h with ⟨e, h⟩ | ⟨e, h⟩ <;> rcases h' with ⟨e', h'⟩ | ⟨e', h'⟩
  · exact ⟨funext fun a => (h a).1.trans (h' a).1.symm, funext fun a => (h a).2.trans (h' a).2.symm⟩
  · rw [e] at e'; exact absurd e' Set.not_nonempty_empty
  · rw [e'] at e; exact absurd e Set.not_nonempty_empty
  · exact ⟨funext fun a => (h a).1.unique (h' a).1, funext fun a => (h a).2.unique (h' a).2⟩

/-- conversion to a static map and back: the visible state and the invariants -/
theorem convert_back (st : St (octreeBackend d) D) (hR : RInv (octreeLawful d) true st) (hne : st.bundleIndices ≠ []) (conv : D → D → D)
    (hg : ∀ c < 2 ^ d, ∀ i x, st.content c i = some x → conv x default = x ∧ conv x x = x) (f : Nat → Nat) (f' : Nat) :
    ∃ size st1 st2, toStatic conv st = some (size, st1) ∧ toDynamic f f' conv st1 = some st2 ∧ Spec.Restored st st2 ∧ RInv (octreeLawful d) true st2 := by
  have hI : RInv (octreeLawful d) true st := hR
  obtain ⟨size, st1, h1, h2, h3, h4, h5, _⟩ := convert_static st hR hne conv hg
  have hI1 : RInv (arrayLawful d) false st1 := by
    unfold toStatic at h1
    split at h1
    · obtain ⟨s, hs, he⟩ := Option.map_eq_some_iff.1 h1
      cases he
      rename_i hdef
      obtain ⟨s', x1, x2, _⟩ := convert_spec (octreeLawful d) st true hI (.static (fun a => (convSize st a).getD 0) (convMin st)) conv hg
        (fun bi hbi => by
          have hv : ((Kind.static (fun a => (convSize st a).getD 0) (convMin st)).init D).abs.valid false bi = true := by
            refine (Kind.static_valid _ (convMin st) bi).2 fun a => ?_
            have hal : bi ∈ st.abs.allocated := (mem_allocated_iff st bi).2 ((mem_bundleIndices (octreeLawful d) st hI.inv bi).1 hbi)
            rcases hI.ainv.bounds rfl with ⟨he, _⟩ | ⟨_, ht⟩
            · rw [he] at hal; exact absurd hal (Set.notMem_empty _)
            · obtain ⟨⟨_, h1⟩, _, h2⟩ := ht a
              have h1' : st.minB a ≤ bi a := h1 ⟨bi, hal, rfl⟩
              have h2' : bi a ≤ st.maxB a := h2 ⟨bi, hal, rfl⟩
              obtain ⟨n, e0, e1, e2⟩ := convSize_eq st a (dyn_bounds hR hne a)
              rw [e0, e2]
              simp only [Option.getD_some]
              omega
          exact ⟨hv, Kind.static_good _ _ _ hv⟩) (fun h => by cases h)
      have : s' = st1 := by
        have hs' : convertList false conv (bundleList st) (staticInit d D (fun a => (convSize st a).getD 0) (convMin st)) = some s' := x1
        rw [hs'] at hs
        exact Option.some.inj hs
      rw [← this]; exact x2
    · cases h1
  obtain ⟨st2, y1, y2, y3, _, y5, _⟩ := convert_spec (arrayLawful d) st1 false hI1 (.dynamic f f') conv (fun c hc i x hx => hg c hc i x (by rw [← h2.contents]; exact hx))
    (fun bi hbi => by
      have hin := dyn_range hR bi ((h2.bundles bi).1 hbi)
      exact ⟨rfl, decide_eq_true hin.1, fun c hc => decide_eq_true (hin.2 c hc)⟩)
    (fun _ bi hbi a => by
      have := (dyn_range hR bi ((h2.bundles bi).1 hbi)).1 a
      omega)
  have hal : st2.abs.allocated = st.abs.allocated := by
    rw [y5]
    ext bi
    rw [mem_allocated_iff, mem_allocated_iff, ← mem_bundleIndices (arrayLawful d) st1 hI1.inv, ← mem_bundleIndices (octreeLawful d) st hI.inv]
    exact h2.bundles bi
  have ht := y2.ainv.bounds rfl
  rw [hal] at ht
  obtain ⟨e1, e2⟩ := tight_unique ht (hI.ainv.bounds rfl)
  exact ⟨size, st1, st2, h1, y1, ⟨fun bi => (y3.bundles bi).trans (h2.bundles bi), fun c k => (y3.contents c k).trans (h2.contents c k),
    fun bi c hc => (y3.binContents bi c hc).trans (h2.binContents bi c hc), e1, e2⟩, y2⟩

/-- **C39** (round trip). dynamic → static → dynamic is the identity on bundles, contents and bounds, for every reachable non-empty dynamic map. -/
theorem C39_roundtrip (st : St (octreeBackend d) D) (hR : MapReachable (.dynamic g g') exp st) (hne : st.bundleIndices ≠ []) (conv : D → D → D)
    (hg : ∀ c < 2 ^ d, ∀ i x, st.content c i = some x → conv x default = x ∧ conv x x = x) (f : Nat → Nat) (f' : Nat) :
    ∃ size st1 st2, toStatic conv st = some (size, st1) ∧ toDynamic f f' conv st1 = some st2 ∧ Spec.Restored st st2 := by
  obtain ⟨size, st1, st2, a1, a2, a3, _⟩ := convert_back st hR.spec.1 hne conv hg f f'
  exact ⟨size, st1, st2, a1, a2, a3⟩

end

/-- **C38, C39**: the copies of both kinds of distributions reproduce every value that occurs in a map (`C27_no_empty_distribution`: an occupancy cell has no distribution without samples). -/
theorem C38_copies {D E : Type} [Inhabited D] : (∀ x : D, convDist x default = x ∧ convDist x x = x) ∧
    (∀ o : Occ Nat E, (o.data = none ↔ o.samples = 0) → convOcc o default = o ∧ convOcc o o = o) := by
  refine ⟨fun x => ⟨rfl, rfl⟩, fun o ho => ⟨?_, ?_⟩⟩
  · unfold convOcc
    split
    · rfl
    · rename_i h
      push Not at h
      obtain ⟨h1, h2⟩ := h
      cases o with
      | mk fr data =>
        cases data with
        | none =>
          have : fr = 0 := Nat.le_zero.1 h1
          rw [this]; rfl
        | some s =>
          have hs : s.card = 0 := Nat.le_zero.1 h2
          have : s = 0 := Multiset.card_eq_zero.1 hs
          subst this
          have := ho.2 rfl
          cases this
  · unfold convOcc; split <;> rfl

/-- **C38, C39** for occupancy maps: for every history of an occupancy map from which a non-empty dynamic map results, the conversion to a static map and back is the identity. -/
theorem C39_occupancy_roundtrip {K : Type} [Field K] [LinearOrder K] [IsStrictOrderedRing K] [FloorRing K] {d : Nat} (g : Nat → Nat) (g' : Nat) (geo : Geo K d)
    (defRay : Pt K d → Pt K d → List (Idx d)) (exp : Occ Nat (Pt K d) → Bool) (ops : List (OccMapOp K d Nat (Pt K d)))
    (st : St (octreeBackend d) (Occ Nat (Pt K d))) (h : occRun (occFlavour K d) geo true defRay exp ops ((Kind.dynamic g g').init _) = some st)
    (hne : st.bundleIndices ≠ []) (f : Nat → Nat) (f' : Nat) :
    ∃ size st1 st2, toStatic convOcc st = some (size, st1) ∧ toDynamic f f' convOcc st1 = some st2 ∧ Spec.Converted st st1 ∧ Spec.Restored st st2 := by
  have hR : MapReachable (.dynamic g g') exp st := occ_reachable _ geo (.dynamic g g') defRay exp ops _ st .init h
  have hg : ∀ c < 2 ^ d, ∀ i x, st.content c i = some x → convOcc x default = x ∧ convOcc x x = x := fun c hc i x hx =>
    (C38_copies (D := Nat)).2 x (C27_no_empty_distribution (occFlavour K d) (.dynamic g g') geo defRay exp ops st h c hc i x hx)
  obtain ⟨size, st1, a1, a2, _⟩ := C38_dynamic_to_static st hR hne convOcc hg
  obtain ⟨size', st1', st2, b1, b2, b3⟩ := C39_roundtrip st hR hne convOcc hg f f'
  rw [a1] at b1
  cases b1
  exact ⟨size, st1, st2, a1, b2, a2, b3⟩

section
variable {d : Nat} {D : Type} [Inhabited D]

/-- **C53 refuted**: converting a dynamic map without insertions to a static map is undefined (the difference of the initial bounds overflows), in every dimension. -/
theorem C53_empty_conversion_refuted (hd : 0 < d) (g : Nat → Nat) (g' : Nat) (conv : D → D → D) : toStatic conv (dynInit d D g g') = none := by
  unfold toStatic
  rw [if_neg]
  intro h
  have h0 := h ⟨0, hd⟩
  have h1 : convMin (dynInit d D g g') ⟨0, hd⟩ = 2147483646 := by
    unfold convMin
    rw [floor_half]
    rfl
  have h2 : convMax (dynInit d D g g') ⟨0, hd⟩ = -2147483647 := by
    unfold convMax
    rw [ceil_half]
    rfl
  unfold convSize intSub at h0
  rw [h1, h2, if_neg (by decide)] at h0
  cases h0

/-- **C53** (partial): the conversion to a dynamic map is defined and yields an empty map; and the conversion of every non-empty map is defined (`C38_dynamic_to_static`). -/
theorem C53_empty_to_dynamic_partial (g : Nat → Nat) (g' : Nat) (conv : D → D → D) (f : Nat → Nat) (f' : Nat) :
    ∃ st', toDynamic f f' conv (dynInit d D g g') = some st' ∧ st'.bundleIndices = [] := by
  obtain ⟨st', h1, h2, _⟩ := C39_to_dynamic (k := .dynamic g g') (exp := fun _ : D => false) ((Kind.dynamic (d := d) g g').init D) .init
    (fun bi hbi => by
      rw [mem_bundleIndices (Kind.dynamic (d := d) g g').lawful _ (Kind.init_rinv _).inv, Kind.init_bundle] at hbi
      cases hbi) conv (fun c _ i x hx => by
      have : ((Kind.dynamic (d := d) g g').init D).abs.content c i = some x := hx
      rw [Kind.init_content (d := d)] at this; cases this) f f'
  refine ⟨st', h1, ?_⟩
  rw [List.eq_nil_iff_forall_not_mem]
  intro bi hbi
  have := (h2.bundles bi).1 hbi
  rw [mem_bundleIndices (Kind.dynamic (d := d) g g').lawful _ (Kind.init_rinv _).inv, Kind.init_bundle] at this
  cases this

end

/-- Non-vacuity: an occupancy map with an allocated bundle is converted there and back. -/
example (geo : Geo ℚ 2) (ray : Pt ℚ 2 → Pt ℚ 2 → List (Idx 2)) : ∃ st : St (octreeBackend 2) (Occ Nat (Pt ℚ 2)),
    occRun (occFlavour ℚ 2) geo true ray (fun _ => true) [.core (.bundleAt ![3, -2])] ((Kind.dynamic (fun _ => 0) 0).init _) = some st ∧ st.bundleIndices ≠ [] ∧
    ∃ size st1 st2, toStatic convOcc st = some (size, st1) ∧ toDynamic (fun _ => 0) 0 convOcc st1 = some st2 ∧ Spec.Converted st st1 ∧ Spec.Restored st st2 := by
  have hG : ((Kind.dynamic (fun _ => 0) 0).init (Occ Nat (Pt ℚ 2))).abs.Good ![3, -2] :=
    ⟨decide_eq_true (by decide : Spec.InRange (![3, -2] : Idx 2)), fun c hc => decide_eq_true ((by decide : ∀ c < 4, Spec.InRange (generateIndex ![3, -2] c)) c (by simpa using hc))⟩
  obtain ⟨b, st, h1, hI, _, hb, _⟩ := getAllocate_spec (octreeLawful 2) true ![3, -2] _ (Kind.init_rinv (D := Occ Nat (Pt ℚ 2)) (.dynamic (fun _ => 0) 0)).inv hG
  have h : occRun (occFlavour ℚ 2) geo true ray (fun _ => true) [.core (.bundleAt ![3, -2])] ((Kind.dynamic (fun _ => 0) 0).init _) = some st := by
    have h1' : getAllocate true ![3, -2] ((Kind.dynamic (fun _ => 0) 0).init (Occ Nat (Pt ℚ 2))) = some (b, st) := h1
    simp only [occRun, occStep, coreStep, getDistributionBundle]
    rw [if_pos (show valid true ((Kind.dynamic (fun _ => 0) 0).init (Occ Nat (Pt ℚ 2))) ![3, -2] = true from rfl), h1']
    rfl
  have hne : st.bundleIndices ≠ [] := by
    have : (![3, -2] : Idx 2) ∈ st.bundleIndices := (mem_bundleIndices (octreeLawful 2) st hI _).2 (by rw [hb]; rfl)
    exact List.ne_nil_of_mem this
  exact ⟨st, h, hne, C39_occupancy_roundtrip (fun _ => 0) 0 geo ray (fun _ => true) _ st h hne (fun _ => 0) 0⟩

/-- Non-vacuity: the two-dimensional sample map, converted there and back. -/
example : ∃ (st : St (octreeBackend 2) Nat) (size : Fin 2 → Nat) (st1 : St (arrayBackend 2) Nat) (st2 : St (octreeBackend 2) Nat),
    toStatic convDist st = some (size, st1) ∧ toDynamic (fun _ => 0) 0 convDist st1 = some st2 ∧ st1.content 3 ![1, 0] = some 12 ∧ st2.content 3 ![1, 0] = some 12 := by
  obtain ⟨st, h1, h2, h3, _⟩ := sample_saved (fun _ => 5) 9
  obtain ⟨size, st1, a1, a2, _⟩ := C38_dynamic_to_static st h1 h2 convDist (fun _ _ _ _ _ => ⟨rfl, rfl⟩)
  obtain ⟨size', st1', st2, b1, b2, b3⟩ := C39_roundtrip st h1 h2 convDist (fun _ _ _ _ _ => ⟨rfl, rfl⟩) (fun _ => 0) 0
  rw [a1] at b1
  cases b1
  exact ⟨st, size, st1, st2, a1, b2, by rw [a2.contents]; exact h3, by rw [b3.contents]; exact h3⟩

end Ndt
