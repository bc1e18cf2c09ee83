import Verif.Props.Field
import Verif.Props.OccHistory
import Verif.Props.AnySampling
import Verif.Props.Evidence
import Verif.Spec.Support

/-!
Property theorems C113: samples are positive exactly where the map has evidence, and evidence is never lost.
-/

namespace Ndt
open St Spec

section
variable {K : Type} [Field K] [LinearOrder K] [IsStrictOrderedRing K] [FloorRing K] {d : Nat}

/-- a sample of a map is positive if and only if one of its terms is -/
theorem support_any {D : Type} [Inhabited D] (k : Kind d) (exp : D → Bool) (st : St k.backend D) (hR : MapReachable k exp st) (w : Nat → K) (hw : ∀ c, 0 ≤ w c) (f : D → K) (hf : ∀ x, 0 ≤ f x)
    (r : K) (hr : 0 < r) (q : Pt K d) (b : Idx d) (hb : Spec.InBundle r b q) (x : K) (hx : sampleWith k.dyn w f (toBundleIndex r q) st = some x) :
    0 ≤ x ∧ (0 < x ↔ Spec.Region r k q ∧ b ∈ st.bundleIndices ∧ ∃ c, c < 2 ^ d ∧ 0 < w c ∧ 0 < f ((st.content c (generateIndex b c)).getD default)) := by
  have hI := hR.spec.1
  have hbi := toBundleIndex_of_inBundle hr hb
  obtain ⟨h1, h2⟩ := (sampleWith_spec k.lawful k.dyn _ _ _ st hI).1 x hx
  have hval : st.valid k.dyn (toBundleIndex r q) = true ↔ Spec.Region r k q := by
    rw [← valid_iff_region D r hr k]
    show st.abs.valid _ _ = true ↔ _
    rw [hR.spec.2.valid]
  have hal : toBundleIndex r q ∈ st.abs.allocated ↔ b ∈ st.bundleIndices := by
    rw [hbi, mem_allocated_iff, mem_bundleIndices k.lawful st hI.inv]
  rw [hval, hal] at h1 h2
  by_cases hh : Spec.Region r k q ∧ b ∈ st.bundleIndices
  · have e := h1 hh
    rw [hbi] at e
    have hn : ∀ c ∈ Finset.range (2 ^ d), 0 ≤ w c * f (st.abs.val c (generateIndex b c)) := fun c _ => mul_nonneg (hw c) (hf _)
    rw [e]
    refine ⟨Finset.sum_nonneg hn, ?_⟩
    rw [Finset.sum_pos_iff_of_nonneg hn]
    constructor
    · rintro ⟨c, hc, hp⟩
      have h3 : w c ≠ 0 := by rintro h; rw [h, zero_mul] at hp; exact lt_irrefl _ hp
      have h4 : f (st.abs.val c (generateIndex b c)) ≠ 0 := by intro h; rw [h, mul_zero] at hp; exact lt_irrefl _ hp
      exact ⟨hh.1, hh.2, c, Finset.mem_range.1 hc, lt_of_le_of_ne (hw c) h3.symm, lt_of_le_of_ne (hf _) h4.symm⟩
    · rintro ⟨_, _, c, hc, h3, h4⟩
      exact ⟨c, Finset.mem_range.2 hc, mul_pos h3 h4⟩
  · rw [h2 hh]
    exact ⟨le_refl _, fun h => absurd h (lt_irrefl _), fun h => absurd ⟨h.1, h.2.1⟩ hh⟩

omit [FloorRing K] in
theorem hat_nonneg (r : K) (c : Nat) (k : Idx d) (p : Pt K d) : 0 ≤ Spec.hat r c k p := Finset.prod_nonneg fun _ _ => le_max_left _ _

omit [FloorRing K] in
/-- the hat function is positive in the interior of its cell only -/
theorem hat_pos_iff {r : K} (hr : 0 < r) (c : Nat) (k : Idx d) (p : Pt K d) : 0 < Spec.hat r c k p ↔ Spec.InOpenCell r c k p := by
  have hr2 : (0 : K) < r / 2 := half_pos hr
  have key : ∀ i, 0 < max 0 (1 - |p i - Spec.centre r c k i| / (r / 2)) ↔ ((k i : K) - shift K c i.1) * r < p i ∧ p i < ((k i : K) + 1 - shift K c i.1) * r := by
    intro i
    have e : Spec.centre r c k i = ((k i : K) - shift K c i.1) * r + r / 2 := by unfold Spec.centre; ring
    have e' : ((k i : K) + 1 - shift K c i.1) * r = ((k i : K) - shift K c i.1) * r + r := by ring
    rw [lt_max_iff, sub_pos, div_lt_one hr2, abs_lt, e, e']
    constructor
    · rintro (h | ⟨h1, h2⟩)
      · exact absurd h (lt_irrefl _)
      · constructor <;> linarith
    · rintro ⟨h1, h2⟩
      right
      constructor <;> linarith
  constructor
  · intro h i
    refine (key i).1 (lt_of_le_of_ne (le_max_left _ _) fun hz => ?_)
    have : Spec.hat r c k p = 0 := Finset.prod_eq_zero (Finset.mem_univ i) hz.symm
    rw [this] at h
    exact lt_irrefl _ h
  · exact fun h => Finset.prod_pos fun i _ => (key i).2 (h i)

omit [LinearOrder K] [IsStrictOrderedRing K] [FloorRing K] in
theorem divCount_pos' [LinearOrder K] [IsStrictOrderedRing K] : 0 < divCount K d := by
  rw [divCount_eq]; positivity

omit [FloorRing K] in
theorem open_inCell {r : K} {c : Nat} {i : Idx d} {p : Pt K d} (h : Spec.InOpenCell r c i p) : Spec.InCell r c i p := fun a => ⟨(h a).1.le, (h a).2⟩

/-- samples (without interpolation) of a map of any class -/
theorem support_nn {D : Type} [Inhabited D] (k : Kind d) (exp : D → Bool) (st : St k.backend D) (hR : MapReachable k exp st) (f : D → K) (hf : ∀ x, 0 ≤ f x)
    (r : K) (hr : 0 < r) (q : Pt K d) (b : Idx d) (hb : Spec.InBundle r b q) (x : K) (hx : sampleWith k.dyn (fun _ => divCount K d) f (toBundleIndex r q) st = some x) :
    0 ≤ x ∧ (0 < x ↔ Spec.Region r k q ∧ b ∈ st.bundleIndices ∧ ∃ c, c < 2 ^ d ∧ ∃ i, Spec.InCell r c i q ∧ 0 < f ((st.content c i).getD default)) := by
  obtain ⟨h1, h2⟩ := support_any k exp st hR _ (fun _ => divCount_pos'.le) f hf r hr q b hb x hx
  refine ⟨h1, h2.trans (and_congr_right fun _ => and_congr_right fun _ => exists_congr fun c => and_congr_right fun _ => ?_)⟩
  rw [← toBundleIndex_of_inBundle hr hb]
  constructor
  · rintro ⟨_, h⟩
    exact ⟨_, (C01_point_in_selected_cell hr q c _).1 rfl, h⟩
  · rintro ⟨i, hi, h⟩
    rw [cell_index hr q c i hi]
    exact ⟨divCount_pos', h⟩

/-- interpolated samples of a map of any class -/
theorem support_bilinear {D : Type} [Inhabited D] (k : Kind d) (exp : D → Bool) (st : St k.backend D) (hR : MapReachable k exp st) (f : D → K) (hf : ∀ x, 0 ≤ f x)
    (r : K) (hr : 0 < r) (q : Pt K d) (b : Idx d) (hb : Spec.InBundle r b q) (x : K)
    (hx : sampleWith k.dyn (interpolationWeight (interpolationWeights (toBundleIndex r q) q (bundleResolutionInv r))) f (toBundleIndex r q) st = some x) :
    0 ≤ x ∧ (0 < x ↔ Spec.Region r k q ∧ b ∈ st.bundleIndices ∧ ∃ c, c < 2 ^ d ∧ ∃ i, Spec.InOpenCell r c i q ∧ 0 < f ((st.content c i).getD default)) := by
  have hcell : ∀ c, Spec.InCell r c (generateIndex b c) q := fun c => by
    rw [← toBundleIndex_of_inBundle hr hb]
    exact (C01_point_in_selected_cell hr q c _).1 rfl
  have hw : ∀ c, interpolationWeight (interpolationWeights (toBundleIndex r q) q (bundleResolutionInv r)) c = Spec.hat r c (generateIndex b c) q := fun c => hat_index hr q c _ (hcell c)
  obtain ⟨h1, h2⟩ := support_any k exp st hR _ (fun c => by rw [hw]; exact hat_nonneg _ _ _ _) f hf r hr q b hb x hx
  refine ⟨h1, h2.trans (and_congr_right fun _ => and_congr_right fun _ => exists_congr fun c => and_congr_right fun _ => ?_)⟩
  rw [hw, hat_pos_iff hr]
  constructor
  · rintro ⟨h, h'⟩
    exact ⟨_, h, h'⟩
  · rintro ⟨i, hi, h⟩
    have e : generateIndex b c = i := by
      rw [← toBundleIndex_of_inBundle hr hb]
      exact cell_index hr q c i (open_inCell hi)
    rw [e]
    exact ⟨hi, h⟩

/-! ## NDT maps -/

/-- **C113** (NDT maps). After any history, samples are nonnegative, and a sample is positive if and only if the point is covered by the map, its bundle is allocated, and one of the cells
around it contains enough points for a distribution; an interpolated sample is positive if and only if, in addition, the point is not on the border of that cell. -/
theorem C113_positive_iff (k : Kind d) (g : Geo K d) (hr : 0 < g.r) (exp : Multiset (Pt K d) → Bool) (ops : List (GridOp K d)) (st : St k.backend (Multiset (Pt K d)))
    (h : gridRun g k.dyn exp ops (k.init _) = some st) (enough : Multiset (Pt K d) → Prop) (dens : Multiset (Pt K d) → Pt K d → K) (hd : ∀ s q, 0 ≤ dens s q ∧ (0 < dens s q ↔ enough s))
    (p : Pt K d) (b : Idx d) (hb : Spec.InBundle g.r b (g.toMap p)) (x : K) :
    (sampleNNAt g k.dyn dens p st = some x →
      0 ≤ x ∧ (0 < x ↔ Spec.Region g.r k (g.toMap p) ∧ b ∈ st.bundleIndices ∧ Spec.Seen g.r enough (Spec.accepted g k ops) (g.toMap p))) ∧
    (sampleBilinearAt g k.dyn dens p st = some x →
      0 ≤ x ∧ (0 < x ↔ Spec.Region g.r k (g.toMap p) ∧ b ∈ st.bundleIndices ∧ Spec.SeenInside g.r enough (Spec.accepted g k ops) (g.toMap p))) := by
  have hR := grid_reachable g k exp ops _ st .init h
  have hc := C10_contents_exact k g hr exp ops st h
  constructor
  · intro hx
    obtain ⟨h1, h2⟩ := support_nn k exp st hR _ (fun s => (hd s (g.toMap p)).1) g.r hr _ b hb x hx
    refine ⟨h1, h2.trans (and_congr_right fun _ => and_congr_right fun _ => exists_congr fun c => and_congr_right fun hc' => exists_congr fun i => and_congr_right fun _ => ?_)⟩
    rw [(hd _ _).2]
    exact Eq.to_iff (congrArg enough (hc c hc' i))
  · intro hx
    obtain ⟨h1, h2⟩ := support_bilinear k exp st hR _ (fun s => (hd s (g.toMap p)).1) g.r hr _ b hb x hx
    refine ⟨h1, h2.trans (and_congr_right fun _ => and_congr_right fun _ => exists_congr fun c => and_congr_right fun hc' => exists_congr fun i => and_congr_right fun _ => ?_)⟩
    rw [(hd _ _).2]
    exact Eq.to_iff (congrArg enough (hc c hc' i))

/-- **C113** (NDT maps, after neighbourhood allocation). The samples are positive exactly on the covered part of the cells with enough points: the bundles that happen to exist do not matter. -/
theorem C113_expanded (k : Kind d) (g : Geo K d) (hr : 0 < g.r) (exp : Multiset (Pt K d) → Bool) (hexp : exp 0 = false) (ops : List (GridOp K d)) (more : List (CoreOp d))
    (st : St k.backend (Multiset (Pt K d))) (h : gridRun g k.dyn exp (expandedHistory ops more) (k.init _) = some st) (dens : Multiset (Pt K d) → Pt K d → K)
    (hd : ∀ s q, 0 ≤ dens s q ∧ (0 < dens s q ↔ exp s = true)) (p : Pt K d) (x : K) :
    (sampleNNAt g k.dyn dens p st = some x → (0 < x ↔ Spec.Region g.r k (g.toMap p) ∧ Spec.Seen g.r (fun s => exp s = true) (Spec.accepted g k ops) (g.toMap p))) ∧
    (sampleBilinearAt g k.dyn dens p st = some x → (0 < x ↔ Spec.Region g.r k (g.toMap p) ∧ Spec.SeenInside g.r (fun s => exp s = true) (Spec.accepted g k ops) (g.toMap p))) := by
  classical
  obtain ⟨hR, hC, hv⟩ := grid_complete k g hr exp hexp ops more st h
  have hb := (C01_bundle_contains_point hr (g.toMap p) (toBundleIndex g.r (g.toMap p))).1 rfl
  have hacc : Spec.accepted g k (expandedHistory ops more) = Spec.accepted g k ops := by
    unfold expandedHistory
    rw [accepted_append]
    show _ + Spec.accepted g k (more.map .core) = _
    rw [accepted_core, add_zero]
  have hseen : Spec.Region g.r k (g.toMap p) → Spec.Seen g.r (fun s => exp s = true) (Spec.accepted g k ops) (g.toMap p) → toBundleIndex g.r (g.toMap p) ∈ st.bundleIndices := by
    rintro hp ⟨c, hc, i, hi, he⟩
    refine hC _ ?_ c hc ?_
    · show st.abs.valid _ _ = true
      rw [hR.spec.2.valid]
      exact (valid_iff_region _ g.r hr k _).2 hp
    · rw [cell_index hr _ c i hi, ← he]
      refine congrArg exp ?_
      refine (C10_contents_exact k g hr exp _ st h c hc i).trans ?_
      rw [hacc]
  obtain ⟨h1, h2⟩ := C113_positive_iff k g hr exp _ st h (fun s => exp s = true) dens hd p _ hb x
  rw [hacc] at h1 h2
  refine ⟨fun hx => (h1 hx).2.trans ⟨fun hh => ⟨hh.1, hh.2.2⟩, fun hh => ⟨hh.1, hseen hh.1 hh.2, hh.2⟩⟩, fun hx => (h2 hx).2.trans ⟨fun hh => ⟨hh.1, hh.2.2⟩, fun hh => ⟨hh.1, ?_, hh.2⟩⟩⟩
  obtain ⟨c, hc, i, hi, he⟩ := hh.2
  exact hseen hh.1 ⟨c, hc, i, open_inCell hi, he⟩

theorem seen_mono {r : K} {enough : Multiset (Pt K d) → Prop} (hm : ∀ s t, s ≤ t → enough s → enough t) {a a' : Multiset (Pt K d)} (h : a ≤ a') (q : Pt K d) :
    (Spec.Seen r enough a q → Spec.Seen r enough a' q) ∧ (Spec.SeenInside r enough a q → Spec.SeenInside r enough a' q) := by
  classical
  constructor <;> rintro ⟨c, hc, i, hi, he⟩ <;> exact ⟨c, hc, i, hi, hm _ _ (Multiset.filter_le_filter _ h) he⟩

theorem bundles_kept {D : Type} [Inhabited D] {k : Kind d} {st st' : St k.backend D} (hI : RInv k.lawful k.dyn st) (hI' : RInv k.lawful k.dyn st') (hK : Abs.Keeps k.dyn st.abs st'.abs) {b : Idx d}
    (hb : b ∈ st.bundleIndices) : b ∈ st'.bundleIndices := by
  rw [mem_bundleIndices k.lawful st' hI'.inv, ← mem_allocated_iff]
  refine hK.allocated ?_
  rw [mem_allocated_iff, ← mem_bundleIndices k.lawful st hI.inv]
  exact hb

/-- **C113** (NDT maps, evidence is never lost). If more points never make a distribution unusable, then a positive sample stays positive whatever is done with the map afterwards. -/
theorem C113_never_lost (k : Kind d) (g : Geo K d) (hr : 0 < g.r) (exp : Multiset (Pt K d) → Bool) (st st' : St k.backend (Multiset (Pt K d))) (hst : Reachable k g exp st)
    (later : List (GridOp K d)) (h : gridRun g k.dyn exp later st = some st') (enough : Multiset (Pt K d) → Prop) (hm : ∀ s t, s ≤ t → enough s → enough t)
    (dens : Multiset (Pt K d) → Pt K d → K) (hd : ∀ s q, 0 ≤ dens s q ∧ (0 < dens s q ↔ enough s)) (p : Pt K d) (x x' : K) :
    (sampleNNAt g k.dyn dens p st = some x → sampleNNAt g k.dyn dens p st' = some x' → 0 < x → 0 < x') ∧
    (sampleBilinearAt g k.dyn dens p st = some x → sampleBilinearAt g k.dyn dens p st' = some x' → 0 < x → 0 < x') := by
  obtain ⟨ops, hops⟩ := hst
  have hI : RInv k.lawful k.dyn st := (grid_reachable g k exp ops _ st .init hops).spec.1
  obtain ⟨hI', hK, _⟩ := gridRun_spec k.lawful g k.dyn exp later st st' hI h
  have h' : gridRun g k.dyn exp (ops ++ later) (k.init _) = some st' := by rw [gridRun_append, hops]; exact h
  have hb := (C01_bundle_contains_point hr (g.toMap p) (toBundleIndex g.r (g.toMap p))).1 rfl
  have hle : Spec.accepted g k ops ≤ Spec.accepted g k (ops ++ later) := by rw [accepted_append]; exact Multiset.le_add_right _ _
  obtain ⟨m1, m2⟩ := seen_mono (r := g.r) hm hle (g.toMap p)
  obtain ⟨a1, a2⟩ := C113_positive_iff k g hr exp ops st hops enough dens hd p _ hb x
  obtain ⟨b1, b2⟩ := C113_positive_iff k g hr exp _ st' h' enough dens hd p _ hb x'
  constructor
  · intro hx hx' hp
    obtain ⟨c1, c2, c3⟩ := (a1 hx).2.1 hp
    exact (b1 hx').2.2 ⟨c1, bundles_kept hI hI' hK c2, m1 c3⟩
  · intro hx hx' hp
    obtain ⟨c1, c2, c3⟩ := (a2 hx).2.1 hp
    exact (b2 hx').2.2 ⟨c1, bundles_kept hI hI' hK c2, m2 c3⟩

/-! ## Occupancy maps -/

section
variable {W E M : Type} [AddCommMonoid W]

theorem occValue_nonneg (dens : Multiset E → Pt K d → K) (occ : Occ W E → K) (q : Pt K d) (hd : ∀ s, 0 ≤ dens s q) (ho : ∀ o, o.data ≠ none → 0 < occ o) (o : Occ W E) : 0 ≤ occValue dens occ q o := by
  unfold occValue
  cases h : o.data with
  | none => exact le_refl _
  | some s => exact mul_nonneg (hd s) (ho o (by rw [h]; exact Option.some_ne_none _)).le

theorem occValue_pos_iff (enough : Multiset E → Prop) (h0 : ¬ enough 0) (dens : Multiset E → Pt K d → K) (occ : Occ W E → K) (q : Pt K d) (hd : ∀ s, 0 ≤ dens s q ∧ (0 < dens s q ↔ enough s))
    (ho : ∀ o, o.data ≠ none → 0 < occ o) (o : Occ W E) : 0 < occValue dens occ q o ↔ enough o.samples := by
  unfold occValue Occ.samples
  cases h : o.data with
  | none => exact ⟨fun h => absurd h (lt_irrefl _), fun h => absurd h h0⟩
  | some s =>
    have hp : 0 < occ o := ho o (by rw [h]; exact Option.some_ne_none _)
    rw [← (hd s).2]
    exact ⟨fun h => pos_of_mul_pos_left h hp.le, fun h => mul_pos h hp⟩

theorem occ_support (fl : Flavour K d W E) (k : Kind d) (g : Geo K d) (hr : 0 < g.r) (defRay : Pt K d → Pt K d → List (Idx d)) (exp : Occ W E → Bool) (st : St k.backend (Occ W E))
    (hst : OccReachable fl k g defRay exp st) (enough : Multiset E → Prop) (h0 : ¬ enough 0) (dens : Multiset E → Pt K d → K) (hd : ∀ s q, 0 ≤ dens s q ∧ (0 < dens s q ↔ enough s))
    (occ : M → Occ W E → K) (m : M) (ho : ∀ o, o.data ≠ none → 0 < occ m o) (p : Pt K d) (b : Idx d) (hb : Spec.InBundle g.r b (g.toMap p)) (x : K) :
    (occSampleNNAt g k.dyn dens occ p (some m) st = .ok (some x) → 0 ≤ x ∧ (0 < x ↔ Spec.Region g.r k (g.toMap p) ∧ b ∈ st.bundleIndices ∧
      ∃ c, c < 2 ^ d ∧ ∃ i, Spec.InCell g.r c i (g.toMap p) ∧ enough ((st.content c i).getD Occ.new).samples)) ∧
    (occSampleBilinearAt g k.dyn dens occ p (some m) st = .ok (some x) → 0 ≤ x ∧ (0 < x ↔ Spec.Region g.r k (g.toMap p) ∧ b ∈ st.bundleIndices ∧
      ∃ c, c < 2 ^ d ∧ ∃ i, Spec.InOpenCell g.r c i (g.toMap p) ∧ enough ((st.content c i).getD Occ.new).samples)) := by
  obtain ⟨ops, hops⟩ := hst
  have hR := occ_reachable fl g k defRay exp ops _ st .init hops
  have hf := occValue_nonneg dens (occ m) (g.toMap p) (fun s => (hd s _).1) ho
  have hp := fun o => occValue_pos_iff enough h0 dens (occ m) (g.toMap p) (fun s => hd s _) ho o
  constructor
  · intro hx
    obtain ⟨h1, h2⟩ := support_nn k exp st hR _ hf g.r hr _ b hb x (Except.ok.inj hx)
    exact ⟨h1, h2.trans (and_congr_right fun _ => and_congr_right fun _ => exists_congr fun c => and_congr_right fun _ => exists_congr fun i => and_congr_right fun _ => hp _)⟩
  · intro hx
    obtain ⟨h1, h2⟩ := support_bilinear k exp st hR _ hf g.r hr _ b hb x (Except.ok.inj hx)
    exact ⟨h1, h2.trans (and_congr_right fun _ => and_congr_right fun _ => exists_congr fun c => and_congr_right fun _ => exists_congr fun i => and_congr_right fun _ => hp _)⟩

theorem occ_samples_grow (fl : Flavour K d W E) (hmean : ∀ s : Multiset (Pt K d), fl.mean (s.map fl.sample) = Spec.meanOf s) (k : Kind d) (g : Geo K d) (hr : 0 < g.r)
    (defRay : Pt K d → Pt K d → List (Idx d)) (exp : Occ W E → Bool) : ∀ (later : List (OccMapOp K d W E)) (st st' : St k.backend (Occ W E)), OccReachable fl k g defRay exp st →
    occRun fl g k.dyn defRay exp later st = some st' → ∀ c, c < 2 ^ d → ∀ i, ((st.content c i).getD Occ.new).samples ≤ ((st'.content c i).getD Occ.new).samples
  | [], st, st', _, h, c, _, i => by cases h; exact le_refl _
  | op :: l, st, st', hst, h, c, hc, i => by
    obtain ⟨s1, e1, e2⟩ := Option.bind_eq_some_iff.1 (show (occStep fl g k.dyn defRay exp op st).bind _ = some st' from h)
    obtain ⟨o, -, hs⟩ := step_contribution fl hmean k g hr defRay exp st s1 hst op e1
    have hst1 : OccReachable fl k g defRay exp s1 := by
      obtain ⟨ops, hops⟩ := hst
      refine ⟨ops ++ [op], ?_⟩
      rw [occRun_append, hops]
      show (occStep fl g k.dyn defRay exp op st).bind _ = _
      rw [e1]; rfl
    refine le_trans ?_ (occ_samples_grow fl hmean k g hr defRay exp l s1 st' hst1 e2 c hc i)
    rw [(hs c hc i).1]
    exact Multiset.le_add_right _ _

theorem occ_never_lost (fl : Flavour K d W E) (hmean : ∀ s : Multiset (Pt K d), fl.mean (s.map fl.sample) = Spec.meanOf s) (k : Kind d) (g : Geo K d) (hr : 0 < g.r)
    (defRay : Pt K d → Pt K d → List (Idx d)) (exp : Occ W E → Bool) (st st' : St k.backend (Occ W E)) (hst : OccReachable fl k g defRay exp st) (later : List (OccMapOp K d W E))
    (h : occRun fl g k.dyn defRay exp later st = some st') (enough : Multiset E → Prop) (h0 : ¬ enough 0) (hm : ∀ s t, s ≤ t → enough s → enough t) (dens : Multiset E → Pt K d → K)
    (hd : ∀ s q, 0 ≤ dens s q ∧ (0 < dens s q ↔ enough s)) (occ : M → Occ W E → K) (m m' : M) (ho : ∀ m o, o.data ≠ none → 0 < occ m o) (p : Pt K d) (x x' : K) :
    (occSampleNNAt g k.dyn dens occ p (some m) st = .ok (some x) → occSampleNNAt g k.dyn dens occ p (some m') st' = .ok (some x') → 0 < x → 0 < x') ∧
    (occSampleBilinearAt g k.dyn dens occ p (some m) st = .ok (some x) → occSampleBilinearAt g k.dyn dens occ p (some m') st' = .ok (some x') → 0 < x → 0 < x') := by
  have hgrow := occ_samples_grow fl hmean k g hr defRay exp later st st' hst h
  have hst' : OccReachable fl k g defRay exp st' := by
    obtain ⟨ops, hops⟩ := hst
    exact ⟨ops ++ later, by rw [occRun_append, hops]; exact h⟩
  obtain ⟨hI', hK⟩ := occRun_inv k.lawful fl g k.dyn defRay exp later st st' hst.rinv h
  have hb := (C01_bundle_contains_point hr (g.toMap p) (toBundleIndex g.r (g.toMap p))).1 rfl
  obtain ⟨a1, a2⟩ := occ_support fl k g hr defRay exp st hst enough h0 dens hd occ m (ho m) p _ hb x
  obtain ⟨b1, b2⟩ := occ_support fl k g hr defRay exp st' hst' enough h0 dens hd occ m' (ho m') p _ hb x'
  constructor
  · intro hx hx' hp
    obtain ⟨c1, c2, c, hc, i, hi, he⟩ := (a1 hx).2.1 hp
    exact (b1 hx').2.2 ⟨c1, bundles_kept hst.rinv hI' hK c2, c, hc, i, hi, hm _ _ (hgrow c hc i) he⟩
  · intro hx hx' hp
    obtain ⟨c1, c2, c, hc, i, hi, he⟩ := (a2 hx).2.1 hp
    exact (b2 hx').2.2 ⟨c1, bundles_kept hst.rinv hI' hK c2, c, hc, i, hi, hm _ _ (hgrow c hc i) he⟩

end

end

theorem occupancy_pos {E : Type} (m : Ivm) (o : Occ Nat E) (h : o.data ≠ none) : 0 < Occ.occupancy m o := by
  unfold Occ.occupancy
  cases hx : o.data with
  | none => exact absurd hx h
  | some s => exact logOddsFrom_pos _

theorem occupancyW_pos {P : Type} (m : Ivm) (o : Occ ℝ (P × ℝ)) (h : o.data ≠ none) : 0 < Occ.occupancyW m o := by
  unfold Occ.occupancyW
  cases hx : o.data with
  | none => exact absurd hx h
  | some s => exact logOddsFrom_pos _

section
variable {d : Nat}

/-- **C113** (occupancy maps). After any history, whatever the inverse sensor model, samples are nonnegative and a sample is positive if and only if the point is covered by the map, its
bundle is allocated and one of the cells around it recorded enough hits; misses do not matter. Interpolated samples: in the interior of the cell. -/
theorem C113_occupancy (k : Kind d) (g : Geo ℝ d) (hr : 0 < g.r) (defRay : Pt ℝ d → Pt ℝ d → List (Idx d)) (exp : Occ Nat (Pt ℝ d) → Bool) (st : St k.backend (Occ Nat (Pt ℝ d)))
    (hst : OccReachable (occFlavour ℝ d) k g defRay exp st) (enough : Multiset (Pt ℝ d) → Prop) (h0 : ¬ enough 0) (dens : Multiset (Pt ℝ d) → Pt ℝ d → ℝ)
    (hd : ∀ s q, 0 ≤ dens s q ∧ (0 < dens s q ↔ enough s)) (m : Ivm) (p : Pt ℝ d) (b : Idx d) (hb : Spec.InBundle g.r b (g.toMap p)) (x : ℝ) :
    (occSampleNNAt g k.dyn dens Occ.occupancy p (some m) st = .ok (some x) → 0 ≤ x ∧ (0 < x ↔ Spec.Region g.r k (g.toMap p) ∧ b ∈ st.bundleIndices ∧
      ∃ c, c < 2 ^ d ∧ ∃ i, Spec.InCell g.r c i (g.toMap p) ∧ enough ((st.content c i).getD Occ.new).samples)) ∧
    (occSampleBilinearAt g k.dyn dens Occ.occupancy p (some m) st = .ok (some x) → 0 ≤ x ∧ (0 < x ↔ Spec.Region g.r k (g.toMap p) ∧ b ∈ st.bundleIndices ∧
      ∃ c, c < 2 ^ d ∧ ∃ i, Spec.InOpenCell g.r c i (g.toMap p) ∧ enough ((st.content c i).getD Occ.new).samples)) :=
  occ_support _ k g hr defRay exp st hst enough h0 dens hd _ m (occupancy_pos m) p b hb x

/-- **C113** (weighted occupancy maps). -/
theorem C113_weighted (k : Kind d) (g : Geo ℝ d) (hr : 0 < g.r) (defRay : Pt ℝ d → Pt ℝ d → List (Idx d)) (exp : Occ ℝ (Pt ℝ d × ℝ) → Bool) (st : St k.backend (Occ ℝ (Pt ℝ d × ℝ)))
    (hst : OccReachable (weightedFlavour ℝ d) k g defRay exp st) (enough : Multiset (Pt ℝ d × ℝ) → Prop) (h0 : ¬ enough 0) (dens : Multiset (Pt ℝ d × ℝ) → Pt ℝ d → ℝ)
    (hd : ∀ s q, 0 ≤ dens s q ∧ (0 < dens s q ↔ enough s)) (m : Ivm) (p : Pt ℝ d) (b : Idx d) (hb : Spec.InBundle g.r b (g.toMap p)) (x : ℝ) :
    (occSampleNNAt g k.dyn dens Occ.occupancyW p (some m) st = .ok (some x) → 0 ≤ x ∧ (0 < x ↔ Spec.Region g.r k (g.toMap p) ∧ b ∈ st.bundleIndices ∧
      ∃ c, c < 2 ^ d ∧ ∃ i, Spec.InCell g.r c i (g.toMap p) ∧ enough ((st.content c i).getD Occ.new).samples)) ∧
    (occSampleBilinearAt g k.dyn dens Occ.occupancyW p (some m) st = .ok (some x) → 0 ≤ x ∧ (0 < x ↔ Spec.Region g.r k (g.toMap p) ∧ b ∈ st.bundleIndices ∧
      ∃ c, c < 2 ^ d ∧ ∃ i, Spec.InOpenCell g.r c i (g.toMap p) ∧ enough ((st.content c i).getD Occ.new).samples)) :=
  occ_support _ k g hr defRay exp st hst enough h0 dens hd _ m (occupancyW_pos m) p b hb x

/-- **C113** (occupancy maps built by `insert`). In terms of the scans: positive exactly around cells with enough hits. -/
theorem C113_occupancy_scans (k : Kind d) (g : Geo ℝ d) (hr : 0 < g.r) (defRay : Pt ℝ d → Pt ℝ d → List (Idx d)) (exp : Occ Nat (Pt ℝ d) → Bool)
    (ops : List (OccMapOp ℝ d Nat (Pt ℝ d))) (hp : ∀ op ∈ ops, op.Plain) (st : St k.backend (Occ Nat (Pt ℝ d))) (h : occRun (occFlavour ℝ d) g k.dyn defRay exp ops (k.init _) = some st)
    (enough : Multiset (Pt ℝ d) → Prop) (h0 : ¬ enough 0) (dens : Multiset (Pt ℝ d) → Pt ℝ d → ℝ)
    (hd : ∀ s q, 0 ≤ dens s q ∧ (0 < dens s q ↔ enough s)) (m : Ivm) (p : Pt ℝ d) (b : Idx d) (hb : Spec.InBundle g.r b (g.toMap p)) (x : ℝ) :
    (occSampleNNAt g k.dyn dens Occ.occupancy p (some m) st = .ok (some x) →
      (0 < x ↔ Spec.Region g.r k (g.toMap p) ∧ b ∈ st.bundleIndices ∧ Spec.Seen g.r enough ((scansOf ops).map fun s => Spec.hits g k s).sum (g.toMap p))) ∧
    (occSampleBilinearAt g k.dyn dens Occ.occupancy p (some m) st = .ok (some x) →
      (0 < x ↔ Spec.Region g.r k (g.toMap p) ∧ b ∈ st.bundleIndices ∧ Spec.SeenInside g.r enough ((scansOf ops).map fun s => Spec.hits g k s).sum (g.toMap p))) := by
  obtain ⟨h1, h2⟩ := C113_occupancy k g hr defRay exp st ⟨ops, h⟩ enough h0 dens hd m p b hb x
  have hc := fun c hc i => (C27_occupancy_counts k g hr defRay exp ops hp st h c hc i).2.1
  constructor
  · intro hx
    refine (h1 hx).2.trans (and_congr_right fun _ => and_congr_right fun _ => exists_congr fun c => and_congr_right fun hc' => exists_congr fun i => and_congr_right fun _ => ?_)
    exact Eq.to_iff (congrArg enough (hc c hc' i))
  · intro hx
    refine (h2 hx).2.trans (and_congr_right fun _ => and_congr_right fun _ => exists_congr fun c => and_congr_right fun hc' => exists_congr fun i => and_congr_right fun _ => ?_)
    exact Eq.to_iff (congrArg enough (hc c hc' i))

/-- **C113** (weighted occupancy maps built by `insert`). -/
theorem C113_weighted_scans (k : Kind d) (g : Geo ℝ d) (hr : 0 < g.r) (defRay : Pt ℝ d → Pt ℝ d → List (Idx d)) (exp : Occ ℝ (Pt ℝ d × ℝ) → Bool)
    (ops : List (OccMapOp ℝ d ℝ (Pt ℝ d × ℝ))) (hp : ∀ op ∈ ops, op.Plain) (st : St k.backend (Occ ℝ (Pt ℝ d × ℝ))) (h : occRun (weightedFlavour ℝ d) g k.dyn defRay exp ops (k.init _) = some st)
    (enough : Multiset (Pt ℝ d × ℝ) → Prop) (h0 : ¬ enough 0) (dens : Multiset (Pt ℝ d × ℝ) → Pt ℝ d → ℝ)
    (hd : ∀ s q, 0 ≤ dens s q ∧ (0 < dens s q ↔ enough s)) (m : Ivm) (p : Pt ℝ d) (b : Idx d) (hb : Spec.InBundle g.r b (g.toMap p)) (x : ℝ) :
    (occSampleNNAt g k.dyn dens Occ.occupancyW p (some m) st = .ok (some x) → (0 < x ↔ Spec.Region g.r k (g.toMap p) ∧ b ∈ st.bundleIndices ∧
      Spec.Seen g.r (fun s => enough (s.map fun a => (a, 1))) ((scansOf ops).map fun s => Spec.hits g k s).sum (g.toMap p))) ∧
    (occSampleBilinearAt g k.dyn dens Occ.occupancyW p (some m) st = .ok (some x) → (0 < x ↔ Spec.Region g.r k (g.toMap p) ∧ b ∈ st.bundleIndices ∧
      Spec.SeenInside g.r (fun s => enough (s.map fun a => (a, 1))) ((scansOf ops).map fun s => Spec.hits g k s).sum (g.toMap p))) := by
  obtain ⟨h1, h2⟩ := C113_weighted k g hr defRay exp st ⟨ops, h⟩ enough h0 dens hd m p b hb x
  have hc := fun c hc i => (C27_weighted_counts k g hr defRay exp ops hp st h c hc i).2.1
  constructor
  · intro hx
    refine (h1 hx).2.trans (and_congr_right fun _ => and_congr_right fun _ => exists_congr fun c => and_congr_right fun hc' => exists_congr fun i => and_congr_right fun _ => ?_)
    exact Eq.to_iff (congrArg enough (hc c hc' i))
  · intro hx
    refine (h2 hx).2.trans (and_congr_right fun _ => and_congr_right fun _ => exists_congr fun c => and_congr_right fun hc' => exists_congr fun i => and_congr_right fun _ => ?_)
    exact Eq.to_iff (congrArg enough (hc c hc' i))

/-- **C113** (occupancy maps, evidence is never lost). However many misses and hits are recorded later, by `insert` or `insertVisible`, and whatever sensor models are used for the two samples,
a positive sample stays positive. -/
theorem C113_occupancy_never_lost (k : Kind d) (g : Geo ℝ d) (hr : 0 < g.r) (defRay : Pt ℝ d → Pt ℝ d → List (Idx d)) (exp : Occ Nat (Pt ℝ d) → Bool) (st st' : St k.backend (Occ Nat (Pt ℝ d)))
    (hst : OccReachable (occFlavour ℝ d) k g defRay exp st) (later : List (OccMapOp ℝ d Nat (Pt ℝ d))) (h : occRun (occFlavour ℝ d) g k.dyn defRay exp later st = some st')
    (enough : Multiset (Pt ℝ d) → Prop) (h0 : ¬ enough 0) (hm : ∀ s t, s ≤ t → enough s → enough t) (dens : Multiset (Pt ℝ d) → Pt ℝ d → ℝ)
    (hd : ∀ s q, 0 ≤ dens s q ∧ (0 < dens s q ↔ enough s)) (m m' : Ivm) (p : Pt ℝ d) (x x' : ℝ) :
    (occSampleNNAt g k.dyn dens Occ.occupancy p (some m) st = .ok (some x) → occSampleNNAt g k.dyn dens Occ.occupancy p (some m') st' = .ok (some x') → 0 < x → 0 < x') ∧
    (occSampleBilinearAt g k.dyn dens Occ.occupancy p (some m) st = .ok (some x) → occSampleBilinearAt g k.dyn dens Occ.occupancy p (some m') st' = .ok (some x') → 0 < x → 0 < x') :=
  occ_never_lost _ occFlavour_mean k g hr defRay exp st st' hst later h enough h0 hm dens hd _ m m' (fun m => occupancy_pos m) p x x'

/-- **C113** (weighted occupancy maps, evidence is never lost). -/
theorem C113_weighted_never_lost (k : Kind d) (g : Geo ℝ d) (hr : 0 < g.r) (defRay : Pt ℝ d → Pt ℝ d → List (Idx d)) (exp : Occ ℝ (Pt ℝ d × ℝ) → Bool) (st st' : St k.backend (Occ ℝ (Pt ℝ d × ℝ)))
    (hst : OccReachable (weightedFlavour ℝ d) k g defRay exp st) (later : List (OccMapOp ℝ d ℝ (Pt ℝ d × ℝ))) (h : occRun (weightedFlavour ℝ d) g k.dyn defRay exp later st = some st')
    (enough : Multiset (Pt ℝ d × ℝ) → Prop) (h0 : ¬ enough 0) (hm : ∀ s t, s ≤ t → enough s → enough t) (dens : Multiset (Pt ℝ d × ℝ) → Pt ℝ d → ℝ)
    (hd : ∀ s q, 0 ≤ dens s q ∧ (0 < dens s q ↔ enough s)) (m m' : Ivm) (p : Pt ℝ d) (x x' : ℝ) :
    (occSampleNNAt g k.dyn dens Occ.occupancyW p (some m) st = .ok (some x) → occSampleNNAt g k.dyn dens Occ.occupancyW p (some m') st' = .ok (some x') → 0 < x → 0 < x') ∧
    (occSampleBilinearAt g k.dyn dens Occ.occupancyW p (some m) st = .ok (some x) → occSampleBilinearAt g k.dyn dens Occ.occupancyW p (some m') st' = .ok (some x') → 0 < x → 0 < x') :=
  occ_never_lost _ weightedFlavour_mean k g hr defRay exp st st' hst later h enough h0 hm dens hd _ m m' (fun m => occupancyW_pos m) p x x'

end

end Ndt
