import Verif.Proofs.SerialMap
import Verif.Props.OccHistory
import Verif.Props.Expand

/-!
The properties of bounds, allocation and bundles (C13, C14, C15, C18, C19) for every class of map. `Props/Gridmap.lean` and `Props/Expand.lean` state them for NDT maps; here the contents `D` of a distribution
are arbitrary, and the states are those reachable by any operations that all classes are made of (`MapReachable`; `grid_reachable` and `occ_reachable` show that the histories of NDT and of occupancy maps,
with visibility-aware insertions, are among them).
-/

namespace Ndt
open St

section
variable {d : Nat} {D : Type} [Inhabited D]

/-- **C13** (all classes): the stored bounds of a dynamic map are the componentwise minimum and maximum over the allocated bundles. -/
theorem C13_bounds_tight_any (g : Nat → Nat) (g' : Nat) (exp : D → Bool) (st : St (octreeBackend d) D) (h : MapReachable (.dynamic g g') exp st) :
    Spec.TightBounds {bi | bi ∈ st.bundleIndices} st.minB st.maxB := by
  have hI : RInv (octreeLawful d) true st := h.spec.1
  have e : {bi | bi ∈ st.bundleIndices} = st.abs.allocated := by
    ext bi
    rw [mem_allocated_iff]
    exact mem_bundleIndices _ st hI.inv bi
  rw [e]; exact hI.ainv.bounds rfl

/-- **C13** (all classes): `empty()` holds exactly when no bundle is allocated. -/
theorem C13_empty_iff_any (hd : 0 < d) (g : Nat → Nat) (g' : Nat) (exp : D → Bool) (st : St (octreeBackend d) D) (h : MapReachable (.dynamic g g') exp st) :
    st.isEmpty true hd = true ↔ st.bundleIndices = [] := by
  unfold isEmpty
  rw [Bool.true_and, decide_eq_true_iff]
  have hI : RInv (octreeLawful d) true st := h.spec.1
  rcases C13_bounds_tight_any g g' exp st h with ⟨e, hb⟩ | ⟨⟨bi, hbi⟩, hb⟩
  · refine iff_of_true (hb _).1 ?_
    rw [List.eq_nil_iff_forall_not_mem]
    intro bi hbi
    exact Set.notMem_empty bi (e ▸ (show bi ∈ {bi | bi ∈ st.bundleIndices} from hbi))
  · refine iff_of_false ?_ (List.ne_nil_of_mem hbi)
    obtain ⟨⟨b, hb1, hb2⟩, _⟩ := (hb ⟨0, hd⟩).1
    obtain ⟨e, he, rfl⟩ := List.mem_map.1 hb1
    have := hI.inv.bstore.2 e he ⟨0, hd⟩
    omega

/-- a point whose cells exist in all grids lies in the bounding box -/
theorem in_bounds_of_cells {K : Type} [Field K] [LinearOrder K] [IsStrictOrderedRing K] [FloorRing K] (g : Nat → Nat) (g' : Nat) (exp : D → Bool) (st : St (octreeBackend d) D)
    (h : MapReachable (.dynamic g g') exp st) (r : K) (hr : 0 < r) (p : Pt K d) (hp : ∀ c, c < 2 ^ d → st.content c (generateIndex (toBundleIndex r p) c) ≠ none) (a : Fin d) :
    st.getMin r a ≤ p a ∧ p a < st.getMax r a := by
  have hI : RInv (octreeLawful d) true st := h.spec.1
  have key : ∀ c, c < 2 ^ d → ∃ bi ∈ st.bundleIndices, generateIndex bi c = generateIndex (toBundleIndex r p) c := by
    intro c hc
    obtain ⟨_, bi, hb, e⟩ := (hI.ainv.used c _).1 (Option.isSome_iff_ne_none.2 (hp c hc))
    refine ⟨bi, ?_, e⟩
    rw [mem_bundleIndices (octreeLawful d) st hI.inv, ← mem_allocated_iff]
    exact hb
  have hc1 : (2 : Nat) ^ a.1 < 2 ^ d := Nat.pow_lt_pow_right (by norm_num) a.2
  obtain ⟨b0, hb0, e0⟩ := key 0 (by positivity)
  obtain ⟨b1, hb1, e1⟩ := key (2 ^ a.1) hc1
  have q0 := (C02_sharing_block 0 _ b0).1 e0 a
  have q1 := (C02_sharing_block (2 ^ a.1) _ b1).1 e1 a
  have r0 := (C02_sharing_block 0 _ (toBundleIndex r p)).1 rfl a
  have r1 := (C02_sharing_block (2 ^ a.1) _ (toBundleIndex r p)).1 rfl a
  rw [Nat.zero_testBit] at q0 r0
  rw [Nat.testBit_two_pow_self] at q1 r1
  simp only [Bool.false_eq_true, if_false, if_true] at q0 r0 q1 r1
  have hin := (C01_bundle_contains_point hr p _).1 rfl a
  rcases C13_bounds_tight_any g g' exp st h with ⟨e, _⟩ | ⟨_, hb⟩
  · exact absurd (e ▸ (show b0 ∈ {bi | bi ∈ st.bundleIndices} from hb0)) (Set.notMem_empty _)
  · have l0 : st.minB a ≤ b0 a := (hb a).1.2 ⟨_, hb0, rfl⟩
    have l1 : st.minB a ≤ b1 a := (hb a).1.2 ⟨_, hb1, rfl⟩
    have u0 : b0 a ≤ st.maxB a := (hb a).2.2 ⟨_, hb0, rfl⟩
    have u1 : b1 a ≤ st.maxB a := (hb a).2.2 ⟨_, hb1, rfl⟩
    have h1 : st.minB a ≤ toBundleIndex r p a := by omega
    have h2 : toBundleIndex r p a ≤ st.maxB a := by omega
    have h1' : (st.minB a : K) ≤ (toBundleIndex r p a : K) := Int.cast_le.2 h1
    have h2' : (toBundleIndex r p a : K) ≤ (st.maxB a : K) := Int.cast_le.2 h2
    unfold getMin getMax bundleResolution
    have hr2 : (0 : K) < 1 / 2 * r := by positivity
    push_cast
    constructor
    · calc _ ≤ (toBundleIndex r p a : K) * (1 / 2 * r) := mul_le_mul_of_nonneg_right h1' hr2.le
        _ = (toBundleIndex r p a : K) * (r / 2) := by ring
        _ ≤ p a := hin.1
    · calc p a < ((toBundleIndex r p a : K) + 1) * (r / 2) := hin.2
        _ = ((toBundleIndex r p a : K) + 1) * (1 / 2 * r) := by ring
        _ ≤ _ := mul_le_mul_of_nonneg_right (by linarith) hr2.le

/-- **C14** (all classes): as `C14_allocation_local_idempotent`. -/
theorem C14_allocation_local_idempotent_any (k : Kind d) (exp : D → Bool) (st : St k.backend D) (h : MapReachable k exp st) (bi : Idx d) (ob : Option Bundle) (st' : St k.backend D)
    (h' : getDistributionBundle k.dyn bi st = some (ob, st')) :
    (ob = none ↔ st.valid k.dyn bi = false) ∧ (ob = none → st' = st) ∧ (∀ b, ob = some b → st'.bundle bi = some b) ∧
    (∀ bj, bj ≠ bi → st'.bundle bj = st.bundle bj) ∧
    (∀ c i, (st'.content c i).getD default = (st.content c i).getD default) ∧ (∀ c i s, st.content c i = some s → st'.content c i = some s) ∧
    (∀ b, st.bundle bi = some b → ob ≠ none → ob = some b ∧ st' = st) ∧
    getDistributionBundle k.dyn bi st' = some (ob, st') := by
  have hI := h.spec.1
  unfold getDistributionBundle at h'
  by_cases hv : st.valid k.dyn bi = true
  · rw [if_pos hv] at h'
    cases hg : getAllocate k.dyn bi st with
    | none => rw [hg] at h'; cases h'
    | some p =>
      rw [hg] at h'; cases h'
      have hgood := good_of_getAllocate k.lawful k.dyn bi st hI.inv p hg
      obtain ⟨b, st1, x1, x2, x3, x4, x5, x6, x7⟩ := getAllocate_spec k.lawful k.dyn bi st hI.inv hgood
      rw [hg] at x1; cases x1
      have hG : Abs.Grow k.dyn st.abs st1.abs := by rw [x3]; exact .alloc bi .refl hgood
      refine ⟨by simp [hv], by simp, ?_, x6, ?_, fun c i s hs => hG.content c i s hs, ?_, ?_⟩
      · intro b' hb'; cases hb'; exact x4
      · exact fun c i => hG.val c i
      · intro b' hb' _
        obtain ⟨y1, y2⟩ := x5 b' hb'
        exact ⟨by rw [y1], y2⟩
      · unfold getDistributionBundle
        have hv' : st1.valid k.dyn bi = true := by rw [valid_abs, hG.valid]; exact hv
        rw [if_pos hv']
        obtain ⟨b2, st2, z1, _, _, _, z5, _⟩ := getAllocate_spec k.lawful k.dyn bi st1 x2 ((hG.good bi).2 hgood)
        obtain ⟨y1, y2⟩ := z5 b x4
        rw [z1, y1, y2]
  · rw [if_neg hv] at h'
    cases h'
    refine ⟨by simpa using hv, fun _ => rfl, by simp, fun _ _ => rfl, fun _ _ => rfl, fun _ _ _ h => h, by simp, ?_⟩
    unfold getDistributionBundle; rw [if_neg hv]

/-- **C15** (all classes): each allocated bundle has `2^d` non-null entries, entry `c` being the object stored in storage `c` at the generated index; two bundles have the same object at entry `c` iff their
generated indices agree; and an update of any bundle the storages cover runs to completion. -/
theorem C15_bundles_any (k : Kind d) (exp : D → Bool) (st : St k.backend D) (h : MapReachable k exp st) :
    (∀ bi b, st.bundle bi = some b → ∀ c, c < 2 ^ d → ∃ a, b.data c = some a ∧ st.dist c (generateIndex bi c) = some a) ∧
    (∀ bi bj b b', st.bundle bi = some b → st.bundle bj = some b' → ∀ c c', c < 2 ^ d → c' < 2 ^ d →
      (b.data c = b'.data c' ↔ c = c' ∧ generateIndex bi c = generateIndex bj c')) ∧
    (∀ bi, k.backend.ok st.bundles bi = true → (∀ c, c < 2 ^ d → k.backend.ok (st.storage c) (generateIndex bi c) = true) → ∀ f, (update k.dyn bi f st).isSome = true) := by
  have hI := h.spec.1.inv
  refine ⟨fun bi b hb c hc => hI.complete bi b hb c hc, ?_, ?_⟩
  · intro bi bj b b' hb hb' c c' hc hc'
    obtain ⟨a, h1, h2⟩ := hI.complete bi b hb c hc
    obtain ⟨a', h1', h2'⟩ := hI.complete bj b' hb' c' hc'
    rw [h1, h1']
    constructor
    · intro e
      cases e
      exact hI.inj c _ c' _ a h2 h2'
    · rintro ⟨rfl, e⟩
      rw [e, h2'] at h2
      exact h2.symm
  · intro bi hok hokD f
    obtain ⟨st', h1, _⟩ := update_spec k.lawful k.dyn bi f st hI ⟨hok, hokD⟩
    rw [h1]; rfl

/-- **C18** (all classes): neighbourhood allocation keeps the contents of every distribution, creates only empty ones, allocates exactly the valid neighbours of the not yet expanded bundles that contain
a valid distribution, and changes nothing from the third call on. -/
theorem C18_expand_any (k : Kind d) (exp : D → Bool) (st st' : St k.backend D) (h : MapReachable k exp st) (h' : allocPartials k.dyn exp st = some st') :
    (∀ c i s, st.content c i = some s → st'.content c i = some s) ∧ (∀ c i, (st'.content c i).getD default = (st.content c i).getD default) ∧
    (∀ bj, bj ∈ st'.bundleIndices ↔ bj ∈ st.bundleIndices ∨
      (st.valid k.dyn bj = true ∧ ∃ bi ∈ st.bundleIndices, Spec.Neighbour bi bj ∧ (st.bundle bi).map Bundle.expand = some true ∧
        ∃ c, c < 2 ^ d ∧ ∃ s, st.content c (generateIndex bi c) = some s ∧ exp s = true)) ∧
    (exp default = false → ∀ s2, allocPartials k.dyn exp st' = some s2 → allocPartials k.dyn exp s2 = some s2) := by
  have hI := h.spec.1
  obtain ⟨hI', hG, hf⟩ := allocPartials_flags k.lawful k.dyn exp st st' hI h'
  refine ⟨fun c i s hs => hG.content c i s hs, fun c i => hG.val c i, ?_, fun hexp s2 h2 => allocPartials_fixpoint k.lawful k.dyn exp hexp st st' s2 hI h' h2⟩
  intro bj
  rw [mem_bundleIndices k.lawful st' hI'.inv, ← mem_allocated_iff, Abs.mem_allocated, hf]
  rw [mem_bundleIndices k.lawful st hI.inv bj, ← mem_allocated_iff, Abs.mem_allocated]
  simp only [← trigger_iff]
  constructor
  · intro x
    split at x
    · rename_i ht; left; rw [ht.1]; rfl
    · split at x
      · rename_i hc
        obtain ⟨hv, bi, h1, h2, h3⟩ := hc
        exact Or.inr ⟨hv, bi, h1, h3, h2⟩
      · exact Or.inl x
  · intro x
    split
    · rfl
    · split
      · rfl
      · rename_i hc
        rcases x with x | ⟨hv, bi, h1, h2, h3⟩
        · exact x
        · exact absurd ⟨hv, bi, h1, h3, h2⟩ hc

end

section
variable {K : Type} [Field K] [LinearOrder K] [IsStrictOrderedRing K] [FloorRing K] {d : Nat}

theorem mem_list_sum {α : Type} (x : α) : ∀ l : List (Multiset α), x ∈ l.sum ↔ ∃ m ∈ l, x ∈ m
  | [] => by simp
  | m :: l => by rw [List.sum_cons, Multiset.mem_add, mem_list_sum x l]; simp

theorem recorded_in_bounds {W E : Type} [AddCommMonoid W] (fl : Flavour K d W E) (hmean : ∀ s : Multiset (Pt K d), fl.mean (s.map fl.sample) = Spec.meanOf s) (gb : Nat → Nat) (gb' : Nat) (g : Geo K d) (hr : 0 < g.r)
    (defRay : Pt K d → Pt K d → List (Idx d)) (exp : Occ W E → Bool) (ops : List (OccMapOp K d W E)) (st : St (octreeBackend d) (Occ W E))
    (h : occRun fl g true defRay exp ops ((Kind.dynamic gb gb').init _) = some st) (c : Nat) (hc : c < 2 ^ d) (i : Idx d) (x : E) (hx : x ∈ ((st.content c i).getD Occ.new).samples) :
    ∃ p, x = fl.sample p ∧ ∀ a, st.getMin g.r a ≤ p a ∧ p a < st.getMax g.r a := by
  obtain ⟨outs, _, _, h3⟩ := history_exact fl hmean (.dynamic gb gb') g hr defRay exp ops st h
  have hR : MapReachable (.dynamic gb gb') exp st := occ_reachable fl g (.dynamic gb gb') defRay exp ops _ st .init h
  have hx' := hx
  rw [show (st.content c i).getD Occ.new = (St.content (B := (Kind.dynamic gb gb').backend) st c i).getD Occ.new from rfl, (h3 c hc i).1] at hx'
  obtain ⟨p, hp, rfl⟩ := Multiset.mem_map.1 hx'
  refine ⟨p, rfl, in_bounds_of_cells gb gb' exp st hR g.r hr p ?_⟩
  obtain ⟨m, hm, hpm⟩ := (mem_list_sum p _).1 hp
  obtain ⟨e, he, rfl⟩ := List.mem_map.1 hm
  intro c' hc' hnone
  have h4 := (h3 c' hc' (generateIndex (toBundleIndex g.r p) c')).1
  rw [show St.content (B := (Kind.dynamic gb gb').backend) st c' (generateIndex (toBundleIndex g.r p) c') = none from hnone] at h4
  have h5 : p ∈ ((ops.zip outs).map (Spec.hitsBy g (.dynamic gb gb') c' (generateIndex (toBundleIndex g.r p) c'))).sum := by
    refine (mem_list_sum p _).2 ⟨_, List.mem_map.2 ⟨e, he, rfl⟩, ?_⟩
    obtain ⟨op, o⟩ := e
    cases op with
    | core op => exact absurd hpm (Multiset.notMem_zero p)
    | insert s =>
      simp only [Spec.hitsBy, Spec.hitsOn, Multiset.mem_filter] at hpm ⊢
      exact ⟨hpm.1, (C01_point_in_selected_cell hr p c' _).1 rfl, hpm.2.2⟩
    | insertVisible s occ vm =>
      simp only [Spec.hitsBy, Spec.hitsOn, Multiset.mem_filter] at hpm ⊢
      exact ⟨hpm.1, (C01_point_in_selected_cell hr p c' _).1 rfl, hpm.2.2⟩
  have h6 := Multiset.mem_map_of_mem fl.sample h5
  rw [← h4] at h6
  exact absurd h6 (Multiset.notMem_zero _)

/-- **C13** (occupancy maps, metric bounds): after any history, with or without visibility tests, every recorded hit lies in `[getMin(), getMax())`. -/
theorem C13_hits_in_bounds (gb : Nat → Nat) (gb' : Nat) (g : Geo K d) (hr : 0 < g.r) (defRay : Pt K d → Pt K d → List (Idx d)) (exp : Occ Nat (Pt K d) → Bool)
    (ops : List (OccMapOp K d Nat (Pt K d))) (st : St (octreeBackend d) (Occ Nat (Pt K d))) (h : occRun (occFlavour K d) g true defRay exp ops ((Kind.dynamic gb gb').init _) = some st)
    (c : Nat) (hc : c < 2 ^ d) (i : Idx d) (p : Pt K d) (hp : p ∈ ((st.content c i).getD Occ.new).samples) (a : Fin d) :
    st.getMin g.r a ≤ p a ∧ p a < st.getMax g.r a := by
  obtain ⟨q, rfl, h⟩ := recorded_in_bounds (occFlavour K d) occFlavour_mean gb gb' g hr defRay exp ops st h c hc i p hp
  exact h a

/-- **C13** (weighted maps, metric bounds). -/
theorem C13_weighted_hits_in_bounds (gb : Nat → Nat) (gb' : Nat) (g : Geo K d) (hr : 0 < g.r) (defRay : Pt K d → Pt K d → List (Idx d)) (exp : Occ K (Pt K d × K) → Bool)
    (ops : List (OccMapOp K d K (Pt K d × K))) (st : St (octreeBackend d) (Occ K (Pt K d × K))) (h : occRun (weightedFlavour K d) g true defRay exp ops ((Kind.dynamic gb gb').init _) = some st)
    (c : Nat) (hc : c < 2 ^ d) (i : Idx d) (x : Pt K d × K) (hp : x ∈ ((st.content c i).getD Occ.new).samples) (a : Fin d) :
    st.getMin g.r a ≤ x.1 a ∧ x.1 a < st.getMax g.r a := by
  obtain ⟨q, rfl, h⟩ := recorded_in_bounds (weightedFlavour K d) weightedFlavour_mean gb gb' g hr defRay exp ops st h c hc i x hp
  exact h a

end

/-- a dynamic occupancy map with one hit, one of whose neighbours is accessed -/
def anyHist : List (OccMapOp ℚ 2 Nat (Pt ℚ 2)) := [.insert (visScan Nat [pA] fun _ _ => []), .core (.bundleAt ![2, 0])]

def anyKind : Kind 2 := .dynamic (fun _ => 0) 0

def anyExp (o : Occ Nat (Pt ℚ 2)) : Bool := decide (0 < o.samples.card)

theorem anyHist_run : (occRun (occFlavour ℚ 2) unitGeo true xRay anyExp anyHist (anyKind.init _)).any (fun st =>
    decide (pA ∈ ((st.content 1 (generateIndex ![1, 0] 1)).getD Occ.new).samples ∧ st.getMin (2 : ℚ) 0 = 1 ∧ st.getMax (2 : ℚ) 0 = 3 ∧ st.bundleIndices.length = 2 ∧ st.isEmpty true (by decide) = false)) = true := by
  decide +kernel

/-- Non-vacuity: a map that is reachable in the sense of the theorems of this file, with the hit `pA` recorded (in all four storages, by C27; here storage 1), two bundles, and the bounds `[1, 3)`. -/
example : ∃ st : St (octreeBackend 2) (Occ Nat (Pt ℚ 2)), occRun (occFlavour ℚ 2) unitGeo true xRay anyExp anyHist (anyKind.init _) = some st ∧ MapReachable anyKind anyExp st ∧
    pA ∈ ((st.content 1 (generateIndex ![1, 0] 1)).getD Occ.new).samples ∧ st.getMin (2 : ℚ) 0 = 1 ∧ st.getMax (2 : ℚ) 0 = 3 ∧ st.bundleIndices.length = 2 := by
  have h := anyHist_run
  cases e : occRun (occFlavour ℚ 2) unitGeo true xRay anyExp anyHist (anyKind.init _) with
  | none => rw [e] at h; cases h
  | some st =>
    rw [e] at h
    obtain ⟨h1, h2, h3, h4, _⟩ := of_decide_eq_true h
    exact ⟨st, rfl, occ_reachable (occFlavour ℚ 2) unitGeo anyKind xRay anyExp anyHist _ _ .init e, h1, h2, h3, h4⟩

end Ndt
