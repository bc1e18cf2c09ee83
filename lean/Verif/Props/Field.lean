import Verif.Props.AnySampling

/-!
Property theorems C90: after neighbourhood allocation, the sampled field is a function of the contents of the cells alone (for NDT maps: of the accepted points alone), not of the bundles that happen to
be allocated.
-/

namespace Ndt
open St Abs

section
variable {d : Nat} {D : Type} [Inhabited D]

/-- every bundle of the region that has a bin with an expandable distribution is allocated -/
def FieldComplete (k : Kind d) (exp : D → Bool) (st : St k.backend D) : Prop :=
  ∀ b, st.valid k.dyn b = true → ∀ c, c < 2 ^ d → exp ((st.content c (generateIndex b c)).getD default) = true → b ∈ st.bundleIndices

theorem expanded_complete (k : Kind d) (exp : D → Bool) (hexp : exp default = false) (st st' : St k.backend D) (h : MapReachable k exp st) (h' : allocPartials k.dyn exp st = some st') :
    FieldComplete k exp st' := by
  have hI := h.spec.1
  obtain ⟨_, h2, h3, _⟩ := C18_expand_any k exp st st' h h'
  have hR' : MapReachable k exp st' := .core .expandAll st st' h h'
  have hval : ∀ b, st'.valid k.dyn b = st.valid k.dyn b := fun b =>
    (show st'.abs.valid k.dyn b = st.abs.valid k.dyn b from (hR'.spec.2.valid b).trans (h.spec.2.valid b).symm)
  intro b hv c hc he
  rw [h2] at he
  cases hcont : st.content c (generateIndex b c) with
  | none => rw [hcont] at he; exact absurd (hexp.symm.trans he) (by decide)
  | some s =>
    rw [hcont] at he
    obtain ⟨_, b1, hb1, e1⟩ := (hI.ainv.used c (generateIndex b c)).1 (show (st.content c (generateIndex b c)).isSome = true by rw [hcont]; rfl)
    have hn : Spec.Neighbour b1 b := neighbour_of_shared c b1 b e1
    rw [hval] at hv
    have hb1' : b1 ∈ st.bundleIndices := (mem_bundleIndices k.lawful st hI.inv b1).2 ((mem_allocated_iff st b1).1 hb1)
    refine (h3 b).2 ?_
    obtain ⟨x, hx⟩ := Option.isSome_iff_exists.1 ((mem_allocated_iff st b1).1 hb1)
    by_cases hf : x.expand = true
    · exact Or.inr ⟨hv, b1, hb1', hn, by rw [hx, Option.map_some, hf], c, hc, s, by rw [e1]; exact hcont, he⟩
    · left
      have hfl : st.abs.flags b1 = some false := by
        show (st.bundle b1).map Bundle.expand = some false
        rw [hx, Option.map_some, Bool.eq_false_iff.2 hf]
      exact (mem_bundleIndices k.lawful st hI.inv b).2 ((mem_allocated_iff st b).1 (hI.closed b1 hfl b hv hn))

theorem core_complete (k : Kind d) (exp : D → Bool) (op : CoreOp d) (st st' : St k.backend D) (h : MapReachable k exp st) (h' : coreStep k.dyn exp op st = some st')
    (hC : FieldComplete k exp st) : FieldComplete k exp st' := by
  obtain ⟨hI', hG⟩ := coreStep_spec k.lawful k.dyn exp op st h.spec.1 st' h'
  intro b hv c hc he
  have e : (st'.content c (generateIndex b c)).getD default = (st.content c (generateIndex b c)).getD default := hG.val c (generateIndex b c)
  rw [e] at he
  have hv' : st.valid k.dyn b = true := (hG.valid b).symm.trans hv
  have hb := hC b hv' c hc he
  rw [mem_bundleIndices k.lawful st h.spec.1.inv, ← mem_allocated_iff] at hb
  rw [mem_bundleIndices k.lawful st' hI'.inv, ← mem_allocated_iff]
  exact hG.keeps.allocated hb

/-- lookups and allocations without insertions -/
def coreRun {B : Backend d} (dyn : Bool) (exp : D → Bool) : List (CoreOp d) → St B D → Option (St B D)
  | [], st => some st
  | op :: l, st => (coreStep dyn exp op st).bind (coreRun dyn exp l)

theorem coreRun_complete (k : Kind d) (exp : D → Bool) : ∀ (l : List (CoreOp d)) (st st' : St k.backend D), MapReachable k exp st → coreRun k.dyn exp l st = some st' →
    MapReachable k exp st' ∧ (FieldComplete k exp st → FieldComplete k exp st') ∧ ∀ c i, (st'.content c i).getD default = (st.content c i).getD default
  | [], st, st', hR, h => by cases h; exact ⟨hR, id, fun _ _ => rfl⟩
  | op :: l, st, st', hR, h => by
    simp only [coreRun] at h
    obtain ⟨s1, h1, h2⟩ := Option.bind_eq_some_iff.1 h
    have hR1 : MapReachable k exp s1 := .core op st s1 hR h1
    obtain ⟨a, b, e⟩ := coreRun_complete k exp l s1 st' hR1 h2
    refine ⟨a, fun hC => b (core_complete k exp op st s1 hR h1 hC), fun c i => (e c i).trans ?_⟩
    exact (coreStep_spec k.lawful k.dyn exp op st hR.spec.1 s1 h1).2.val c i

variable {K : Type} [Field K] [LinearOrder K] [IsStrictOrderedRing K] [FloorRing K]

/-- in a complete map the allocation of the bundle does not matter: the value is the weighted sum over the cells containing the point -/
theorem complete_sample (k : Kind d) (exp : D → Bool) (st : St k.backend D) (h : MapReachable k exp st) (hC : FieldComplete k exp st) (w : Nat → K) (f : D → K)
    (hf : ∀ s, exp s = false → f s = 0) (r : K) (hr : 0 < r) (q : Pt K d) (hq : Spec.Region r k q) (x : K) (hx : sampleWith k.dyn w f (toBundleIndex r q) st = some x) :
    x = ∑ c ∈ Finset.range (2 ^ d), w c * f ((st.content c (generateIndex (toBundleIndex r q) c)).getD default) := by
  have hI := h.spec.1
  obtain ⟨h1, h2⟩ := (sampleWith_spec k.lawful k.dyn w f _ st hI).1 x hx
  have hv : st.valid k.dyn (toBundleIndex r q) = true := by
    show st.abs.valid _ _ = true
    rw [h.spec.2.valid]
    exact (valid_iff_region D r hr k q).2 hq
  by_cases hb : toBundleIndex r q ∈ st.bundleIndices
  · exact h1 ⟨hv, (mem_allocated_iff st _).2 ((mem_bundleIndices k.lawful st hI.inv _).1 hb)⟩
  · rw [h2 fun hh => hb ((mem_bundleIndices k.lawful st hI.inv _).2 ((mem_allocated_iff st _).1 hh.2))]
    refine (Finset.sum_eq_zero fun c hc => ?_).symm
    have : exp ((st.content c (generateIndex (toBundleIndex r q) c)).getD default) = false := by
      rw [Bool.eq_false_iff]
      exact fun he => hb (hC _ hv c (Finset.mem_range.1 hc) he)
    rw [hf _ this, mul_zero]

theorem cell_index {r : K} (hr : 0 < r) (q : Pt K d) (c : Nat) (i : Idx d) (hi : Spec.InCell r c i q) : generateIndex (toBundleIndex r q) c = i :=
  (C01_point_in_selected_cell hr q c i).2 hi

theorem hat_index {r : K} (hr : 0 < r) (q : Pt K d) (c : Nat) (i : Idx d) (hi : Spec.InCell r c i q) :
    interpolationWeight (interpolationWeights (toBundleIndex r q) q (bundleResolutionInv r)) c = Spec.hat r c i q := by
  have hb := (C01_bundle_contains_point hr q (toBundleIndex r q)).1 rfl
  have hcl : Spec.InClosedBundle r (toBundleIndex r q) q := fun i => ⟨(hb i).1, (hb i).2.le⟩
  have := C25_weight_is_hat hr (toBundleIndex r q) q hcl c
  rw [cell_index hr q c i hi] at this
  exact this

end

section
variable {K : Type} [Field K] [LinearOrder K] [IsStrictOrderedRing K] [FloorRing K] {d : Nat}

omit [IsStrictOrderedRing K] in
theorem gridRun_core (g : Geo K d) {B : Backend d} (dyn : Bool) (exp : Multiset (Pt K d) → Bool) : ∀ (l : List (CoreOp d)) (st : St B (Multiset (Pt K d))),
    gridRun g dyn exp (l.map .core) st = coreRun dyn exp l st
  | [], st => rfl
  | op :: l, st => by
    simp only [List.map_cons, gridRun, coreRun, gridStep]
    cases coreStep dyn exp op st with
    | none => rfl
    | some s => exact gridRun_core g dyn exp l s

omit [IsStrictOrderedRing K] [FloorRing K] in
theorem accepted_core (g : Geo K d) (k : Kind d) (l : List (CoreOp d)) : Spec.accepted g k (l.map .core) = 0 := by
  induction l with
  | nil => rfl
  | cons a l ih => exact ih

omit [IsStrictOrderedRing K] [FloorRing K] in
theorem accepted_append (g : Geo K d) (k : Kind d) : ∀ l l' : List (GridOp K d), Spec.accepted g k (l ++ l') = Spec.accepted g k l + Spec.accepted g k l'
  | [], l' => (zero_add _).symm
  | .insert pose cloud :: l, l' => by
    show Spec.acceptedPoints g k pose cloud + Spec.accepted g k (l ++ l') = Spec.acceptedPoints g k pose cloud + Spec.accepted g k l + Spec.accepted g k l'
    rw [accepted_append g k l l', add_assoc]
  | .core _ :: l, l' => accepted_append g k l l'

/-- a history of an NDT map that ends with neighbourhood allocation, possibly followed by lookups and further allocations -/
def expandedHistory (ops : List (GridOp K d)) (more : List (CoreOp d)) : List (GridOp K d) := ops ++ .core .expandAll :: more.map .core

theorem grid_complete (k : Kind d) (g : Geo K d) (hr : 0 < g.r) (exp : Multiset (Pt K d) → Bool) (hexp : exp 0 = false) (ops : List (GridOp K d)) (more : List (CoreOp d))
    (st : St k.backend (Multiset (Pt K d))) (h : gridRun g k.dyn exp (expandedHistory ops more) (k.init _) = some st) :
    MapReachable k exp st ∧ FieldComplete k exp st ∧
      ∀ c, c < 2 ^ d → ∀ q, (st.content c (generateIndex (toBundleIndex g.r q) c)).getD default = cellMates g.r (Spec.accepted g k ops) c q := by
  have hR := grid_reachable g k exp _ _ st .init h
  have hacc : Spec.accepted g k (expandedHistory ops more) = Spec.accepted g k ops := by
    unfold expandedHistory
    rw [accepted_append]
    show _ + Spec.accepted g k (more.map .core) = _
    rw [accepted_core, add_zero]
  refine ⟨hR, ?_, fun c hc q => ?_⟩
  · unfold expandedHistory at h
    rw [gridRun_append] at h
    obtain ⟨s0, h0, h⟩ := Option.bind_eq_some_iff.1 h
    simp only [gridRun, gridRun_core] at h
    obtain ⟨s1, h1, h⟩ := Option.bind_eq_some_iff.1 h
    have hR0 := grid_reachable g k exp ops _ s0 .init h0
    have hR1 : MapReachable k exp s1 := .core .expandAll s0 s1 hR0 h1
    exact (coreRun_complete k exp more s1 st hR1 h).2.1 (expanded_complete k exp hexp s0 s1 hR0 h1)
  · rw [← hacc]
    exact val_eq_cellMates k g hr exp _ st h c hc q

/-- **C90** (NDT maps). Take any history that ends with neighbourhood allocation, possibly followed by lookups and further allocations. If distributions that are not valid have density 0, then at every
point of the region the sample is the mean over the `2^d` grids of the densities of all accepted points in the cell containing the point: which bundles are allocated does not matter. -/
theorem C90_field_of_points (k : Kind d) (g : Geo K d) (hr : 0 < g.r) (exp : Multiset (Pt K d) → Bool) (hexp : exp 0 = false) (ops : List (GridOp K d)) (more : List (CoreOp d))
    (st : St k.backend (Multiset (Pt K d))) (h : gridRun g k.dyn exp (expandedHistory ops more) (k.init _) = some st)
    (dens : Multiset (Pt K d) → Pt K d → K) (hd : ∀ s q, exp s = false → dens s q = 0) (p : Pt K d) (hp : Spec.Region g.r k (g.toMap p)) (x : K) :
    (sampleNNAt g k.dyn dens p st = some x →
      x = (∑ c ∈ Finset.range (2 ^ d), dens (cellMates g.r (Spec.accepted g k ops) c (g.toMap p)) (g.toMap p)) / 2 ^ d) ∧
    (sampleBilinearAt g k.dyn dens p st = some x → ∀ i : Nat → Idx d, (∀ c, Spec.InCell g.r c (i c) (g.toMap p)) →
      x = ∑ c ∈ Finset.range (2 ^ d), Spec.hat g.r c (i c) (g.toMap p) * dens (cellMates g.r (Spec.accepted g k ops) c (g.toMap p)) (g.toMap p)) := by
  obtain ⟨hR, hC, hv⟩ := grid_complete k g hr exp hexp ops more st h
  constructor
  · intro hx
    rw [complete_sample k exp st hR hC _ _ (fun s hs => hd s _ hs) g.r hr (g.toMap p) hp x hx, div_eq_inv_mul, Finset.mul_sum]
    refine Finset.sum_congr rfl fun c hc => ?_
    rw [hv c (Finset.mem_range.1 hc), divCount_eq, one_div]
  · intro hx i hi
    rw [complete_sample k exp st hR hC _ _ (fun s hs => hd s _ hs) g.r hr (g.toMap p) hp x hx]
    refine Finset.sum_congr rfl fun c hc => ?_
    rw [hv c (Finset.mem_range.1 hc), hat_index hr _ c (i c) (hi c)]

/-- **C90** (NDT maps, corollary). Two histories that accept the same points, on maps of any class, have the same samples after neighbourhood allocation wherever both maps cover the point. -/
theorem C90_same_points_same_field (k k' : Kind d) (g : Geo K d) (hr : 0 < g.r) (exp : Multiset (Pt K d) → Bool) (hexp : exp 0 = false) (ops ops' : List (GridOp K d)) (more more' : List (CoreOp d))
    (st : St k.backend (Multiset (Pt K d))) (h : gridRun g k.dyn exp (expandedHistory ops more) (k.init _) = some st)
    (st' : St k'.backend (Multiset (Pt K d))) (h' : gridRun g k'.dyn exp (expandedHistory ops' more') (k'.init _) = some st') (hpts : Spec.accepted g k ops = Spec.accepted g k' ops')
    (dens : Multiset (Pt K d) → Pt K d → K) (hd : ∀ s q, exp s = false → dens s q = 0) (p : Pt K d) (hp : Spec.Region g.r k (g.toMap p)) (hp' : Spec.Region g.r k' (g.toMap p)) (x x' : K) :
    (sampleNNAt g k.dyn dens p st = some x → sampleNNAt g k'.dyn dens p st' = some x' → x = x') ∧
    (sampleBilinearAt g k.dyn dens p st = some x → sampleBilinearAt g k'.dyn dens p st' = some x' → x = x') := by
  obtain ⟨a1, a2⟩ := C90_field_of_points k g hr exp hexp ops more st h dens hd p hp x
  obtain ⟨b1, b2⟩ := C90_field_of_points k' g hr exp hexp ops' more' st' h' dens hd p hp' x'
  constructor
  · intro hx hx'
    rw [a1 hx, b1 hx', hpts]
  · intro hx hx'
    have hi : ∀ c, Spec.InCell g.r c (generateIndex (toBundleIndex g.r (g.toMap p)) c) (g.toMap p) := fun c => (C01_point_in_selected_cell hr _ c _).1 rfl
    rw [a2 hx _ hi, b2 hx' _ hi, hpts]

/-- **C90** (occupancy maps). The same for both occupancy map classes: after a history and a final neighbourhood allocation, possibly followed by lookups and further allocations, the sample at a point of the
region is the mean (resp. the hat-function interpolation) over the grids of density times occupancy of the distribution of the cell containing the point (0 if it has no hits). The contents of the cells are
those left by the history before the allocation. -/
theorem C90_occupancy_field {W E M : Type} [AddCommMonoid W] (fl : Flavour K d W E) (k : Kind d) (g : Geo K d) (hr : 0 < g.r) (defRay : Pt K d → Pt K d → List (Idx d)) (exp : Occ W E → Bool)
    (hexp : exp default = false) (s0 s1 st : St k.backend (Occ W E)) (h0 : OccReachable fl k g defRay exp s0) (h1 : allocPartials k.dyn exp s0 = some s1) (more : List (CoreOp d))
    (h : coreRun k.dyn exp more s1 = some st) (dens : Multiset E → Pt K d → K) (occ : M → Occ W E → K) (m : M)
    (hd : ∀ (o : Occ W E) s q, o.data = some s → exp o = false → dens s q = 0) (p : Pt K d) (hp : Spec.Region g.r k (g.toMap p)) (x : K)
    (i : Nat → Idx d) (hi : ∀ c, Spec.InCell g.r c (i c) (g.toMap p)) :
    (occSampleNNAt g k.dyn dens occ p (some m) st = .ok (some x) →
      x = (∑ c ∈ Finset.range (2 ^ d), ((s0.content c (i c)).bind fun o => o.data.map fun s => dens s (g.toMap p) * occ m o).getD 0) / 2 ^ d) ∧
    (occSampleBilinearAt g k.dyn dens occ p (some m) st = .ok (some x) →
      x = ∑ c ∈ Finset.range (2 ^ d), Spec.hat g.r c (i c) (g.toMap p) * ((s0.content c (i c)).bind fun o => o.data.map fun s => dens s (g.toMap p) * occ m o).getD 0) := by
  obtain ⟨ops, hops⟩ := h0
  have hR0 := occ_reachable fl g k defRay exp ops _ s0 .init hops
  have hR1 : MapReachable k exp s1 := .core .expandAll s0 s1 hR0 h1
  obtain ⟨hR, hC, he⟩ := coreRun_complete k exp more s1 st hR1 h
  have hC := hC (expanded_complete k exp hexp s0 s1 hR0 h1)
  have hf : ∀ o : Occ W E, exp o = false → occValue dens (occ m) (g.toMap p) o = 0 := by
    intro o ho
    unfold occValue
    cases hx : o.data with
    | none => rfl
    | some s => exact (congrArg (· * _) (hd o s _ hx ho)).trans (zero_mul _)
  have hval : ∀ c, occValue dens (occ m) (g.toMap p) ((st.content c (generateIndex (toBundleIndex g.r (g.toMap p)) c)).getD default) =
      ((s0.content c (i c)).bind fun o => o.data.map fun s => dens s (g.toMap p) * occ m o).getD 0 := by
    intro c
    rw [he, (C18_expand_any k exp s0 s1 hR0 h1).2.1, cell_index hr _ c (i c) (hi c)]
    cases s0.content c (i c) with
    | none => exact hf _ hexp
    | some o =>
      show occValue dens (occ m) (g.toMap p) o = _
      unfold occValue
      simp only [Option.bind_some]
      cases o.data <;> rfl
  constructor
  · intro hx
    have hx' : sampleWith k.dyn (fun _ => divCount K d) (occValue dens (occ m) (g.toMap p)) (toBundleIndex g.r (g.toMap p)) st = some x := Except.ok.inj hx
    rw [complete_sample k exp st hR hC _ _ hf g.r hr (g.toMap p) hp x hx', div_eq_inv_mul, Finset.mul_sum]
    refine Finset.sum_congr rfl fun c _ => ?_
    rw [hval c, divCount_eq, one_div]
  · intro hx
    have hx' : sampleWith k.dyn _ (occValue dens (occ m) (g.toMap p)) (toBundleIndex g.r (g.toMap p)) st = some x := Except.ok.inj hx
    rw [complete_sample k exp st hR hC _ _ hf g.r hr (g.toMap p) hp x hx']
    refine Finset.sum_congr rfl fun c _ => ?_
    rw [hval c, hat_index hr _ c (i c) (hi c)]

end

/-! ### Concrete cases -/

/-- a static map in one dimension, with the resolution 1 and the cells `-1, 0, 1` -/
def fieldKind : Kind 1 := .static (fun _ => 2) (fun _ => -1)
def fieldGeo : Geo ℚ 1 := { r := 1, toMap := id, normal := fun _ => true }
def fieldExp : Multiset (Pt ℚ 1) → Bool := fun s => decide (0 < s.card)
def fieldDens : Multiset (Pt ℚ 1) → Pt ℚ 1 → ℚ := fun s _ => s.card

theorem fieldDens_zero : ∀ s q, fieldExp s = false → fieldDens s q = 0 := by
  intro s q h
  have : s.card = 0 := by simpa [fieldExp] using h
  unfold fieldDens
  rw [this]; rfl

/-- insert one point, then allocate the neighbourhood -/
def fieldPlain : Option (St fieldKind.backend (Multiset (Pt ℚ 1))) := gridRun fieldGeo false fieldExp (expandedHistory [.insert id [fun _ => 1 / 5]] []) (fieldKind.init _)
/-- allocate a bundle, insert the same point, allocate the neighbourhood, look up another bundle -/
def fieldOther : Option (St fieldKind.backend (Multiset (Pt ℚ 1))) :=
  gridRun fieldGeo false fieldExp (expandedHistory [.core (.bundleAt fun _ => -1), .insert id [fun _ => 1 / 5]] [.bundleAt fun _ => 1]) (fieldKind.init _)

theorem fieldPlain_runs : fieldPlain.isSome = true := by decide +kernel
theorem fieldOther_runs : fieldOther.isSome = true := by decide +kernel

/-- Non-vacuity: both histories run, accept the same point, and a sample in the bundle next to the one of the point is `1/2` in both. -/
example : ∃ st st', fieldPlain = some st ∧ fieldOther = some st' ∧
    Spec.accepted fieldGeo fieldKind [.insert id [fun _ => 1 / 5]] = Spec.accepted fieldGeo fieldKind [.core (.bundleAt fun _ => -1), .insert id [fun _ => 1 / 5]] ∧
    Spec.Region fieldGeo.r fieldKind (fieldGeo.toMap fun _ => 3 / 5) ∧
    sampleNNAt fieldGeo false fieldDens (fun _ => 3 / 5) st = some (1 / 2) ∧ sampleNNAt fieldGeo false fieldDens (fun _ => 3 / 5) st' = some (1 / 2) := by
  refine ⟨_, _, (Option.some_get fieldPlain_runs).symm, (Option.some_get fieldOther_runs).symm, rfl, ?_, by decide +kernel, by decide +kernel⟩
  refine (valid_iff_region (Multiset (Pt ℚ 1)) fieldGeo.r (by decide) fieldKind _).1 ?_
  decide +kernel

/-- the same histories without the neighbourhood allocation -/
def fieldBare : Option (St fieldKind.backend (Multiset (Pt ℚ 1))) := gridRun fieldGeo false fieldExp [.insert id [fun _ => 1 / 5]] (fieldKind.init _)
def fieldLooked : Option (St fieldKind.backend (Multiset (Pt ℚ 1))) := gridRun fieldGeo false fieldExp [.core (.bundleAt fun _ => 1), .insert id [fun _ => 1 / 5]] (fieldKind.init _)

theorem fieldBare_runs : fieldBare.isSome = true := by decide +kernel
theorem fieldLooked_runs : fieldLooked.isSome = true := by decide +kernel

/-- **C90** (without the allocation it is false): after the same insertion, sampling next to the bundle of the point yields 0, or `1/2` if that bundle happens to have been looked up before. -/
theorem C90_unexpanded_refuted : ∃ (ops ops' : List (GridOp ℚ 1)) (st st' : St fieldKind.backend (Multiset (Pt ℚ 1))) (x x' : ℚ),
    gridRun fieldGeo fieldKind.dyn fieldExp ops (fieldKind.init _) = some st ∧ gridRun fieldGeo fieldKind.dyn fieldExp ops' (fieldKind.init _) = some st' ∧
    Spec.accepted fieldGeo fieldKind ops = Spec.accepted fieldGeo fieldKind ops' ∧ Spec.Region fieldGeo.r fieldKind (fieldGeo.toMap fun _ => 3 / 5) ∧
    (∀ s q, fieldExp s = false → fieldDens s q = 0) ∧
    sampleNNAt fieldGeo fieldKind.dyn fieldDens (fun _ => 3 / 5) st = some x ∧ sampleNNAt fieldGeo fieldKind.dyn fieldDens (fun _ => 3 / 5) st' = some x' ∧ x ≠ x' := by
  refine ⟨[.insert id [fun _ => 1 / 5]], [.core (.bundleAt fun _ => 1), .insert id [fun _ => 1 / 5]], _, _, 0, 1 / 2, (Option.some_get fieldBare_runs).symm, (Option.some_get fieldLooked_runs).symm, rfl, ?_,
    fieldDens_zero, by decide +kernel, by decide +kernel, by norm_num⟩
  refine (valid_iff_region (Multiset (Pt ℚ 1)) fieldGeo.r (by decide) fieldKind _).1 ?_
  decide +kernel

/-- one scan with a single point, inserted into an occupancy map -/
def fieldScan : Scan ℚ 1 Nat := { pose := id, cloud := [fun _ => 1 / 5], ray := fun _ _ => [], order := id, order_perm := fun l => List.Perm.refl l }
def fieldOccExp : Occ Nat (Pt ℚ 1) → Bool := fun o => decide (0 < o.samples.card)
def fieldOcc : Option (St fieldKind.backend (Occ Nat (Pt ℚ 1))) := occRun (occFlavour ℚ 1) fieldGeo fieldKind.dyn (fun _ _ => []) fieldOccExp [.insert fieldScan] (fieldKind.init _)

theorem fieldOcc_runs : fieldOcc.isSome = true := by decide +kernel

def fieldOcc1 : Option (St fieldKind.backend (Occ Nat (Pt ℚ 1))) := allocPartials fieldKind.dyn fieldOccExp (fieldOcc.get fieldOcc_runs)

theorem fieldOcc1_runs : fieldOcc1.isSome = true := by decide +kernel

/-- Non-vacuity for occupancy maps: next to the bundle of the hit, the sample is half of density times occupancy. -/
example : ∃ s0 s1 : St fieldKind.backend (Occ Nat (Pt ℚ 1)), OccReachable (occFlavour ℚ 1) fieldKind fieldGeo (fun _ _ => []) fieldOccExp s0 ∧ fieldOccExp default = false ∧
    allocPartials fieldKind.dyn fieldOccExp s0 = some s1 ∧ coreRun fieldKind.dyn fieldOccExp [] s1 = some s1 ∧
    (∀ (o : Occ Nat (Pt ℚ 1)) s q, o.data = some s → fieldOccExp o = false → fieldDens s q = 0) ∧
    Spec.Region fieldGeo.r fieldKind (fieldGeo.toMap fun _ => 3 / 5) ∧
    sampleWith fieldKind.dyn (fun _ => divCount ℚ 1) (occValue fieldDens (fun _ => (1 / 3 : ℚ)) (fieldGeo.toMap fun _ => 3 / 5)) (toBundleIndex fieldGeo.r (fieldGeo.toMap fun _ => 3 / 5)) s1 = some (1 / 6) ∧
    occSampleNNAt fieldGeo fieldKind.dyn fieldDens (fun (m : ℚ) _ => m) (fun _ => 3 / 5) (some (1 / 3)) s1 = .ok (some (1 / 6)) := by
  have hs : sampleWith fieldKind.dyn (fun _ => divCount ℚ 1) (occValue fieldDens (fun _ => (1 / 3 : ℚ)) (fieldGeo.toMap fun _ => 3 / 5)) (toBundleIndex fieldGeo.r (fieldGeo.toMap fun _ => 3 / 5))
      (fieldOcc1.get fieldOcc1_runs) = some (1 / 6) := by decide +kernel
  refine ⟨fieldOcc.get fieldOcc_runs, fieldOcc1.get fieldOcc1_runs, ⟨[.insert fieldScan], (Option.some_get fieldOcc_runs).symm⟩, by decide +kernel, (Option.some_get fieldOcc1_runs).symm, rfl, ?_, ?_, hs,
    congrArg Except.ok hs⟩
  · intro o s q ho he
    have : s.card = 0 := by simpa [fieldOccExp, Occ.samples, ho] using he
    unfold fieldDens
    rw [this]; rfl
  · refine (valid_iff_region (Multiset (Pt ℚ 1)) fieldGeo.r (by decide) fieldKind _).1 ?_
    decide +kernel

end Ndt
