import Verif.Model.Entry
import Verif.Props.Field
import Verif.Props.Raster
import Verif.Props.Export

/-!
Property theorems C94: what the conversions of maps do to the source and to the target.
-/

namespace Ndt
open St

section
variable {D V M : Type} [Inhabited D]

/-! ### null pointers -/

/-- **C94** (no source, no model). A conversion to a grid without a source or, for an occupancy map, without a model changes neither the source nor the target, whatever `allocate_all` is. -/
theorem C94_nothing_to_convert {B : Backend 2} (dyn : Bool) (exp : D → Bool) (all : Bool) (dst : Option (Grid V)) :
    (∀ conv, convertPtr (B := B) dyn exp all conv none dst = some (none, dst)) ∧
    (∀ (model : Option M) conv, convertOccPtr (B := B) dyn exp model all conv none dst = some (none, dst)) ∧
    (∀ (conv : M → St B D → Option (Grid V)) st, convertOccRef dyn exp none all conv st dst = some (st, dst)) ∧
    (∀ (conv : M → St B D → Option (Grid V)) st, convertOccPtr dyn exp none all conv (some st) dst = some (some st, dst)) :=
  ⟨fun _ => rfl, fun _ _ => rfl, fun _ _ => rfl, fun _ _ => rfl⟩

/-! ### the source -/

/-- reachability and contents after the optional allocation -/
theorem convert_alloc_spec {d : Nat} (k : Kind d) (exp : D → Bool) (all : Bool) (st st' : St k.backend D) (h : MapReachable k exp st) (h' : allocateAll k.dyn exp all st = some st') :
    MapReachable k exp st' ∧ (∀ c i s, st.content c i = some s → st'.content c i = some s) ∧ (∀ c i, (st'.content c i).getD default = (st.content c i).getD default) ∧
      (∀ b ∈ st.bundleIndices, b ∈ st'.bundleIndices) ∧ (all = false → st' = st) := by
  cases all with
  | false => cases h'; exact ⟨h, fun _ _ _ h => h, fun _ _ => rfl, fun _ h => h, fun _ => rfl⟩
  | true =>
    obtain ⟨h1, h2, h3, _⟩ := C18_expand_any k exp st st' h h'
    exact ⟨.core .expandAll st st' h h', h1, h2, fun b hb => (h3 b).2 (Or.inl hb), fun h => by cases h⟩

/-- **C94** (source). A conversion of a map never changes the contents of a distribution and never removes a bundle; without `allocate_all` the source is exactly as before. The target is what the conversion proper gives for the source
after the call, independently of the previous target. -/
theorem C94_source_kept (k : Kind 2) (exp : D → Bool) (all : Bool) (conv : St k.backend D → Option (Grid V)) (st : St k.backend D) (dst : Option (Grid V)) (h : MapReachable k exp st)
    (st' : St k.backend D) (dst' : Option (Grid V)) (h' : convertRef k.dyn exp all conv st dst = some (st', dst')) :
    MapReachable k exp st' ∧ (∀ c i s, st.content c i = some s → st'.content c i = some s) ∧ (∀ c i, (st'.content c i).getD default = (st.content c i).getD default) ∧
      (∀ b ∈ st.bundleIndices, b ∈ st'.bundleIndices) ∧ (all = false → st' = st) ∧ (∃ G, conv st' = some G ∧ dst' = some G) ∧
      ∀ other, convertRef k.dyn exp all conv st other = some (st', dst') := by
  unfold convertRef at h'
  obtain ⟨s1, h1, h2⟩ := Option.bind_eq_some_iff.1 h'
  obtain ⟨G, h3, h4⟩ := Option.map_eq_some_iff.1 h2
  cases h4
  obtain ⟨a1, a2, a3, a4, a5⟩ := convert_alloc_spec k exp all st _ h h1
  exact ⟨a1, a2, a3, a4, a5, ⟨G, h3, rfl⟩, fun _ => h'⟩

/-- **C94** (the conversions are defined). For every reachable non-empty map whose neighbourhood allocation stays within the index range, the conversions to probability, binary and distance grids return a grid (the likelihood field: C59). -/
theorem C94_defined {K : Type} [Field K] [LinearOrder K] [IsStrictOrderedRing K] [FloorRing K] (k : Kind 2) (exp : D → Bool) (all : Bool) (st st' : St k.backend D) (h : MapReachable k exp st) (hne : st.bundleIndices ≠ [])
    (hfit : ∀ size lo, k = .static size lo → ∀ a, 2 * size a ≤ 2147483647) (hall : allocateAll k.dyn exp all st = some st') (r s : K) (hr : 0 < r) (hs : 0 < s) (f : D → Pt K 2 → K) (bil : Bool) (dst : Option (Grid K)) :
    (∀ dflt, ∃ G, convertRef k.dyn exp all (toProb r s dflt bil f) st dst = some (st', some G)) ∧ (∀ t dst, ∃ G, convertRef k.dyn exp all (toBinary r s t f) st dst = some (st', some G)) ∧
    (∀ dt, ∃ G, convertRef k.dyn exp all (toDistance r s bil dt f) st dst = some (st', some G)) := by
  obtain ⟨a1, _, _, a4, _⟩ := convert_alloc_spec k exp all st st' h hall
  have hne' : st'.bundleIndices ≠ [] := by
    obtain ⟨b, hb⟩ := List.exists_mem_of_ne_nil _ hne
    exact List.ne_nil_of_mem (a4 b hb)
  have hp : ∀ dflt, ∃ G, toProb r s dflt bil f st' = some G := fun dflt => by
    obtain ⟨G, h1, _⟩ := C42_safe k exp st' a1 hne' hfit r s hr hs dflt (probValue bil f st')
    exact ⟨G, h1⟩
  refine ⟨fun dflt => ?_, fun t dst => ?_, fun dt => ?_⟩
  · obtain ⟨G, h1⟩ := hp dflt
    exact ⟨G, by unfold convertRef; rw [hall, Option.bind_some, h1]; rfl⟩
  · obtain ⟨G, h1, _⟩ := C42_safe k exp st' a1 hne' hfit r s hr hs false (fun b p w => decide (t ≤ probValue false f st' b p w))
    exact ⟨G, by unfold convertRef; rw [hall, Option.bind_some, show toBinary r s t f st' = some G from h1]; rfl⟩
  · obtain ⟨G, h1⟩ := hp 0
    exact ⟨{ G with cells := dt G }, by unfold convertRef toDistance; rw [hall, Option.bind_some, h1]; rfl⟩

/-! ### repeated conversions -/

/-- **C94 (partial)** (no allocation). Without `allocate_all`, converting again gives the same source and the same grid. Missing w.r.t. C94: with `allocate_all` the second grid differs (refuted below), see
`C94_second_conversion_partial` for what remains true. -/
theorem C94_repeat_partial (k : Kind 2) (exp : D → Bool) (conv : St k.backend D → Option (Grid V)) (st st' : St k.backend D) (dst dst' : Option (Grid V))
    (h : convertRef k.dyn exp false conv st dst = some (st', dst')) : convertRef k.dyn exp false conv st' dst' = some (st', dst') := by
  unfold convertRef at h ⊢
  obtain ⟨s1, h1, h2⟩ := Option.bind_eq_some_iff.1 h
  obtain ⟨G, h3, h4⟩ := Option.map_eq_some_iff.1 h2
  cases h4
  cases h1
  exact h

/-- **C94 (partial)** (from the second conversion on). With `allocate_all`, the third conversion of a map gives the same source and the same grid as the second one. -/
theorem C94_third_conversion_partial (k : Kind 2) (exp : D → Bool) (hexp : exp default = false) (conv : St k.backend D → Option (Grid V)) (s0 s1 s2 : St k.backend D) (dst dst1 dst2 : Option (Grid V))
    (h : MapReachable k exp s0) (h1 : convertRef k.dyn exp true conv s0 dst = some (s1, dst1)) (h2 : convertRef k.dyn exp true conv s1 dst1 = some (s2, dst2)) :
    convertRef k.dyn exp true conv s2 dst2 = some (s2, dst2) := by
  unfold convertRef at h1 h2 ⊢
  obtain ⟨t1, a1, b1⟩ := Option.bind_eq_some_iff.1 h1
  obtain ⟨G1, c1, d1⟩ := Option.map_eq_some_iff.1 b1
  cases d1
  obtain ⟨t2, a2, b2⟩ := Option.bind_eq_some_iff.1 h2
  obtain ⟨G2, c2, d2⟩ := Option.map_eq_some_iff.1 b2
  cases d2
  have := (C18_expand_any k exp s0 s1 h a1).2.2.2 hexp s2 a2
  rw [show allocateAll k.dyn exp true s2 = some s2 from this, Option.bind_some, c2]
  rfl

variable {K : Type} [Field K] [LinearOrder K] [IsStrictOrderedRing K] [FloorRing K]

/-- bounds of a map that was extended -/
theorem bounds_grow (k : Kind 2) (exp : D → Bool) (s1 s2 : St k.backend D) (h1 : MapReachable k exp s1) (h2 : MapReachable k exp s2) (hne : s1.bundleIndices ≠ [])
    (hfit : ∀ size lo, k = .static size lo → ∀ a, 2 * size a ≤ 2147483647) (hsub : ∀ b ∈ s1.bundleIndices, b ∈ s2.bundleIndices) (a : Fin 2) : s2.minB a ≤ s1.minB a ∧ s1.maxB a ≤ s2.maxB a := by
  have hne2 : s2.bundleIndices ≠ [] := by
    obtain ⟨b, hb⟩ := List.exists_mem_of_ne_nil _ hne
    exact List.ne_nil_of_mem (hsub b hb)
  have hb2 := raster_bounds h2 hne2 hfit a
  cases k with
  | dynamic g g' =>
    rcases C13_bounds_tight_any g g' exp s1 h1 with ⟨e, _⟩ | ⟨_, ht⟩
    · obtain ⟨b, hb⟩ := List.exists_mem_of_ne_nil _ hne
      exact absurd (show b ∈ {bi | bi ∈ s1.bundleIndices} from hb) (e ▸ Set.notMem_empty b)
    · obtain ⟨⟨⟨b, hb, hb'⟩, _⟩, ⟨c, hc, hc'⟩, _⟩ := ht a
      have x1 := hb2.2.2 b (hsub b hb)
      have x2 := hb2.2.2 c (hsub c hc)
      rw [← hb', ← hc']
      exact ⟨x1.1, x2.2⟩
  | static size lo =>
    obtain ⟨e1, e2, _⟩ := static_bounds h1
    obtain ⟨f1, f2, _⟩ := static_bounds h2
    rw [e1, e2, f1, f2]
    exact ⟨le_refl _, le_refl _⟩

/-- the weighted sum of the values of the cells that contain a point -/
def fieldSum {B : Backend 2} (r : K) (bil : Bool) (f : D → Pt K 2 → K) (st : St B D) (b : Idx 2) (q : Pt K 2) : K :=
  ∑ c ∈ Finset.range (2 ^ 2), (if bil then interpolationWeight (interpolationWeights b q (bundleResolutionInv r)) else fun _ => divCount K 2) c * f ((st.content c (generateIndex b c)).getD default) q

/-- the value of a cell of the raster in terms of the contents -/
theorem raster_field (k : Kind 2) (exp : D → Bool) (st : St k.backend D) (hR : MapReachable k exp st) (hne : st.bundleIndices ≠ [])
    (hfit : ∀ size lo, k = .static size lo → ∀ a, 2 * size a ≤ 2147483647) (r s : K) (hs : 0 < s) (n : Nat) (hn : 0 < n) (hdiv : r / 2 = (n : K) * s) (φ : K → V) (bil : Bool) (f : D → Pt K 2 → K) :
    ∃ G, rasterize r s (φ 0) (fun b p w => φ (probValue bil f st b p w)) st = some G ∧ (G.width : Int) = (st.maxB 0 - st.minB 0 + 1) * n ∧ (G.height : Int) = (st.maxB 1 - st.minB 1 + 1) * n ∧
      ∀ u v b, u < G.width → v < G.height → Spec.InBundle r b (Spec.cellCorner r s st u v) →
        (b ∈ st.bundleIndices → G.cells u v = φ (fieldSum r bil f st b (Spec.cellCorner r s st u v))) ∧ (b ∉ st.bundleIndices → G.cells u v = φ 0) := by
  obtain ⟨G, h1, h2, h3, h4⟩ := raster_exact k exp st hR hne hfit r s hs n hn hdiv (φ 0) (fun b p w => φ (probValue bil f st b p w))
  refine ⟨G, h1, h2, h3, fun u v b hu hv hb => ⟨fun hbm => ?_, (h4 u v b hu hv hb).2⟩⟩
  obtain ⟨⟨b', bd⟩, he, heb⟩ := List.mem_map.1 hbm
  cases heb
  rw [(h4 u v b' hu hv hb).1 bd he]
  have hw := sampleWith_of_mem hR he (if bil then interpolationWeight (interpolationWeights b' (Spec.cellCorner r s st u v) (bundleResolutionInv r)) else fun _ => divCount K 2)
    (fun x => f x (Spec.cellCorner r s st u v))
  have hI := hR.spec.1
  have := ((sampleWith_spec k.lawful k.dyn _ _ _ st hI).1 _ hw).1 ⟨hR.valid b' hbm, (mem_allocated_iff st b').2 ((mem_bundleIndices k.lawful st hI.inv b').1 hbm)⟩
  exact congrArg φ this

/-- The two grids show the same: every cell of the first one is found in the second one, at the same place and with the same value, and the cells of the second one that the first one does not have hold the value `empty`. -/
def Spec.SamePicture {B : Backend 2} (r s : K) (empty : V) (s1 s2 : St B D) (G1 G2 : Grid V) : Prop :=
  (∀ u v, u < G1.width → v < G1.height → ∃ u' v', u' < G2.width ∧ v' < G2.height ∧ Spec.cellCorner r s s2 u' v' = Spec.cellCorner r s s1 u v ∧ G2.cells u' v' = G1.cells u v) ∧
  (∀ u' v', u' < G2.width → v' < G2.height → G2.cells u' v' = empty ∨
    ∃ u v, u < G1.width ∧ v < G1.height ∧ Spec.cellCorner r s s1 u v = Spec.cellCorner r s s2 u' v' ∧ G1.cells u v = G2.cells u' v')

omit [Inhabited D] [IsStrictOrderedRing K] [FloorRing K] [LinearOrder K] in
theorem corner_shift {B : Backend 2} (r s : K) (n : Nat) (hbr : bundleResolution r = (n : K) * s) (s1 s2 : St B D) (u v u' v' : Nat)
    (hu : (u' : Int) = u + (s1.minB 0 - s2.minB 0) * n) (hv : (v' : Int) = v + (s1.minB 1 - s2.minB 1) * n) : Spec.cellCorner r s s2 u' v' = Spec.cellCorner r s s1 u v := by
  have hu' : (u' : K) = u + ((s1.minB 0 : K) - s2.minB 0) * n := by exact_mod_cast congrArg (Int.cast : Int → K) hu
  have hv' : (v' : K) = v + ((s1.minB 1 : K) - s2.minB 1) * n := by exact_mod_cast congrArg (Int.cast : Int → K) hv
  unfold Spec.cellCorner getMin
  rw [hbr, hu', hv']
  congr 1
  · ring
  · congr 1; ring

theorem same_picture (k : Kind 2) (exp : D → Bool) (hexp : exp default = false) (s0 s1 s2 : St k.backend D) (hR : MapReachable k exp s0) (hne : s0.bundleIndices ≠ [])
    (hfit : ∀ size lo, k = .static size lo → ∀ a, 2 * size a ≤ 2147483647) (h1 : allocPartials k.dyn exp s0 = some s1) (h2 : allocPartials k.dyn exp s1 = some s2)
    (r s : K) (hs : 0 < s) (n : Nat) (hn : 0 < n) (hdiv : r / 2 = (n : K) * s) (φ : K → V) (bil : Bool) (f : D → Pt K 2 → K) (hf : ∀ x p, exp x = false → f x p = 0) (G1 G2 : Grid V)
    (g1 : rasterize r s (φ 0) (fun b p w => φ (probValue bil f s1 b p w)) s1 = some G1) (g2 : rasterize r s (φ 0) (fun b p w => φ (probValue bil f s2 b p w)) s2 = some G2) :
    Spec.SamePicture r s (φ 0) s1 s2 G1 G2 := by
  have hR1 : MapReachable k exp s1 := .core .expandAll s0 s1 hR h1
  have hR2 : MapReachable k exp s2 := .core .expandAll s1 s2 hR1 h2
  obtain ⟨_, e1, k1, _⟩ := C18_expand_any k exp s0 s1 hR h1
  obtain ⟨_, e2, k2, _⟩ := C18_expand_any k exp s1 s2 hR1 h2
  have hsub : ∀ b ∈ s1.bundleIndices, b ∈ s2.bundleIndices := fun b hb => (k2 b).2 (Or.inl hb)
  have hne1 : s1.bundleIndices ≠ [] := by
    obtain ⟨b, hb⟩ := List.exists_mem_of_ne_nil _ hne
    exact List.ne_nil_of_mem ((k1 b).2 (Or.inl hb))
  have hne2 : s2.bundleIndices ≠ [] := by
    obtain ⟨b, hb⟩ := List.exists_mem_of_ne_nil _ hne1
    exact List.ne_nil_of_mem (hsub b hb)
  have hC1 := expanded_complete k exp hexp s0 s1 hR h1
  have hval : ∀ b, s2.valid k.dyn b = s1.valid k.dyn b := fun b =>
    (show s2.abs.valid k.dyn b = s1.abs.valid k.dyn b from (hR2.spec.2.valid b).trans (hR1.spec.2.valid b).symm)
  obtain ⟨G1', x1, w1, l1, c1⟩ := raster_field k exp s1 hR1 hne1 hfit r s hs n hn hdiv φ bil f
  obtain ⟨G2', x2, w2, l2, c2⟩ := raster_field k exp s2 hR2 hne2 hfit r s hs n hn hdiv φ bil f
  cases g1.symm.trans x1
  cases g2.symm.trans x2
  have hgrow := bounds_grow k exp s1 s2 hR1 hR2 hne1 hfit hsub
  have hnK : (0 : K) < n := by exact_mod_cast hn
  have hr : 0 < r := by
    have : 0 < r / 2 := by rw [hdiv]; positivity
    linarith
  have hbr : bundleResolution r = (n : K) * s := (chunkStep_eq hs hdiv).2
  have hfs : ∀ b q, fieldSum r bil f s2 b q = fieldSum r bil f s1 b q := fun b q => by
    unfold fieldSum
    exact Finset.sum_congr rfl fun c _ => by rw [e2]
  -- the value of a bundle that the first allocation did not reach is zero
  have hzero : ∀ b q, b ∈ s2.bundleIndices → b ∉ s1.bundleIndices → fieldSum r bil f s2 b q = 0 := by
    intro b q hb2 hb1
    rw [hfs]
    refine Finset.sum_eq_zero fun c hc => ?_
    have : exp ((s1.content c (generateIndex b c)).getD default) = false := by
      rw [Bool.eq_false_iff]
      exact fun he => hb1 (hC1 b ((hval b).symm.trans (hR2.valid b hb2)) c (Finset.mem_range.1 hc) he)
    rw [hf _ _ this, mul_zero]
  have hin : ∀ (q : Pt K 2), Spec.InBundle r (toBundleIndex r q) q := fun q => (C01_bundle_contains_point hr q _).1 rfl
  -- cells at the same place hold the same value
  have hcell : ∀ u v u' v', u < G1.width → v < G1.height → u' < G2.width → v' < G2.height → Spec.cellCorner r s s2 u' v' = Spec.cellCorner r s s1 u v → G2.cells u' v' = G1.cells u v := by
    intro u v u' v' hu hv hu' hv' hq
    have d1 := c1 u v _ hu hv (hin _)
    have d2 := c2 u' v' (toBundleIndex r (Spec.cellCorner r s s1 u v)) hu' hv' (by rw [hq]; exact hin _)
    rw [hq] at d2
    by_cases hb2 : toBundleIndex r (Spec.cellCorner r s s1 u v) ∈ s2.bundleIndices
    · by_cases hb1 : toBundleIndex r (Spec.cellCorner r s s1 u v) ∈ s1.bundleIndices
      · rw [d2.1 hb2, d1.1 hb1, hfs]
      · rw [d2.1 hb2, d1.2 hb1, hzero _ _ hb2 hb1]
    · rw [d2.2 hb2, d1.2 fun h => hb2 (hsub _ h)]
  have hnZ : (0 : Int) < n := by exact_mod_cast hn
  constructor
  · intro u v hu hv
    have a0 : 0 ≤ (s1.minB 0 - s2.minB 0) * (n : Int) := mul_nonneg (by have := (hgrow 0).1; omega) hnZ.le
    have a1 : 0 ≤ (s1.minB 1 - s2.minB 1) * (n : Int) := mul_nonneg (by have := (hgrow 1).1; omega) hnZ.le
    have m0 : 0 ≤ (s2.maxB 0 - s1.maxB 0) * (n : Int) := mul_nonneg (by have := (hgrow 0).2; omega) hnZ.le
    have m1 : 0 ≤ (s2.maxB 1 - s1.maxB 1) * (n : Int) := mul_nonneg (by have := (hgrow 1).2; omega) hnZ.le
    have hu' : (u : Int) < G1.width := by exact_mod_cast hu
    have hv' : (v : Int) < G1.height := by exact_mod_cast hv
    rw [w1] at hu'
    rw [l1] at hv'
    obtain ⟨u', eu⟩ := Int.eq_ofNat_of_zero_le (show 0 ≤ (u : Int) + (s1.minB 0 - s2.minB 0) * n by omega)
    obtain ⟨v', ev⟩ := Int.eq_ofNat_of_zero_le (show 0 ≤ (v : Int) + (s1.minB 1 - s2.minB 1) * n by omega)
    have hlu : u' < G2.width := by
      have : (u' : Int) < G2.width := by rw [w2, ← eu]; nlinarith
      exact_mod_cast this
    have hlv : v' < G2.height := by
      have : (v' : Int) < G2.height := by rw [l2, ← ev]; nlinarith
      exact_mod_cast this
    have hq := corner_shift r s n hbr s1 s2 u v u' v' eu.symm ev.symm
    exact ⟨u', v', hlu, hlv, hq, hcell u v u' v' hu hv hlu hlv hq⟩
  · intro u' v' hu' hv'
    have d2 := c2 u' v' _ hu' hv' (hin _)
    by_cases hb1 : toBundleIndex r (Spec.cellCorner r s s2 u' v') ∈ s1.bundleIndices
    · right
      have hbd := raster_bounds hR1 hne1 hfit
      have hb0 := hin (Spec.cellCorner r s s2 u' v')
      generalize toBundleIndex r (Spec.cellCorner r s s2 u' v') = b at hb0 hb1
      have key : ∀ (m x : Int) (w : Nat), (x : K) * (r / 2) ≤ (m : K) * bundleResolution r + (w : K) * s ∧ (m : K) * bundleResolution r + (w : K) * s < ((x : K) + 1) * (r / 2) →
          x * n ≤ m * n + w ∧ m * n + w < (x + 1) * n := by
        intro m x w ⟨ha, hb⟩
        rw [hdiv, hbr] at ha hb
        constructor
        · have : ((x * n : Int) : K) * s ≤ ((m * n + w : Int) : K) * s := by push_cast; linarith
          exact_mod_cast le_of_mul_le_mul_right this hs
        · have : ((m * n + w : Int) : K) * s < (((x + 1) * n : Int) : K) * s := by push_cast; linarith
          exact_mod_cast lt_of_mul_lt_mul_right this hs.le
      have k0 := key _ _ u' (hb0 0)
      have k1 := key _ _ v' (hb0 1)
      have b0 := (hbd 0).2.2 b hb1
      have b1 := (hbd 1).2.2 b hb1
      have y0 : s1.minB 0 * (n : Int) ≤ b 0 * n := mul_le_mul_of_nonneg_right b0.1 hnZ.le
      have y1 : s1.minB 1 * (n : Int) ≤ b 1 * n := mul_le_mul_of_nonneg_right b1.1 hnZ.le
      have z0 : b 0 * (n : Int) ≤ s1.maxB 0 * n := mul_le_mul_of_nonneg_right b0.2 hnZ.le
      have z1 : b 1 * (n : Int) ≤ s1.maxB 1 * n := mul_le_mul_of_nonneg_right b1.2 hnZ.le
      obtain ⟨u, eu⟩ := Int.eq_ofNat_of_zero_le (show 0 ≤ (u' : Int) - (s1.minB 0 - s2.minB 0) * n by rw [sub_mul]; omega)
      obtain ⟨v, ev⟩ := Int.eq_ofNat_of_zero_le (show 0 ≤ (v' : Int) - (s1.minB 1 - s2.minB 1) * n by rw [sub_mul]; omega)
      have hlu : u < G1.width := by
        have : (u : Int) < G1.width := by rw [w1, ← eu]; nlinarith [k0.2]
        exact_mod_cast this
      have hlv : v < G1.height := by
        have : (v : Int) < G1.height := by rw [l1, ← ev]; nlinarith [k1.2]
        exact_mod_cast this
      have hq := corner_shift r s n hbr s1 s2 u v u' v' (by rw [← eu]; ring) (by rw [← ev]; ring)
      exact ⟨u, v, hlu, hlv, hq.symm, (hcell u v u' v' hlu hlv hu' hv' hq).symm⟩
    · left
      by_cases hb2 : toBundleIndex r (Spec.cellCorner r s s2 u' v') ∈ s2.bundleIndices
      · rw [d2.1 hb2, hzero _ _ hb2 hb1]
      · exact d2.2 hb2

/-- **C94 (partial)** (second conversion). With `allocate_all` and the default value 0 resp. `FREE`, the second conversion to a probability grid resp. to a binary grid shows the same as the first one: the same values at the same places,
and default values elsewhere, provided that the sampled values vanish on distributions that are not valid (`sampleNonNormalized` returns 0 for them) and that the sampling resolution divides the bundle resolution. Missing w.r.t. C94: the grid may be larger,
and with another default value the values differ (refuted below). -/
theorem C94_second_conversion_partial (k : Kind 2) (exp : D → Bool) (hexp : exp default = false) (s0 s1 s2 : St k.backend D) (hR : MapReachable k exp s0) (hne : s0.bundleIndices ≠ [])
    (hfit : ∀ size lo, k = .static size lo → ∀ a, 2 * size a ≤ 2147483647) (r s : K) (hs : 0 < s) (n : Nat) (hn : 0 < n) (hdiv : r / 2 = (n : K) * s) (f : D → Pt K 2 → K)
    (hf : ∀ x p, exp x = false → f x p = 0) :
    (∀ bil dst dst' G1 G2, convertRef k.dyn exp true (toProb r s 0 bil f) s0 dst = some (s1, some G1) → convertRef k.dyn exp true (toProb r s 0 bil f) s1 dst' = some (s2, some G2) →
      Spec.SamePicture r s 0 s1 s2 G1 G2) ∧
    (∀ t, 0 < t → ∀ dst dst' G1 G2, convertRef k.dyn exp true (toBinary r s t f) s0 dst = some (s1, some G1) → convertRef k.dyn exp true (toBinary r s t f) s1 dst' = some (s2, some G2) →
      Spec.SamePicture r s false s1 s2 G1 G2) := by
  have key : ∀ {V : Type} (conv : St k.backend D → Option (Grid V)) (a b : St k.backend D) (dst : Option (Grid V)) (G : Grid V), convertRef k.dyn exp true conv a dst = some (b, some G) →
      allocPartials k.dyn exp a = some b ∧ conv b = some G := by
    intro V conv a b dst G h
    unfold convertRef at h
    obtain ⟨t1, a1, b1⟩ := Option.bind_eq_some_iff.1 h
    obtain ⟨G1, c1, d1⟩ := Option.map_eq_some_iff.1 b1
    cases d1
    exact ⟨a1, c1⟩
  constructor
  · intro bil dst dst' G1 G2 h1 h2
    obtain ⟨a1, g1⟩ := key _ _ _ _ _ h1
    obtain ⟨a2, g2⟩ := key _ _ _ _ _ h2
    exact same_picture k exp hexp s0 s1 s2 hR hne hfit a1 a2 r s hs n hn hdiv id bil f hf G1 G2 g1 g2
  · intro t ht dst dst' G1 G2 h1 h2
    obtain ⟨a1, g1⟩ := key _ _ _ _ _ h1
    obtain ⟨a2, g2⟩ := key _ _ _ _ _ h2
    have e : decide (t ≤ (0 : K)) = false := decide_eq_false (not_le.2 ht)
    have := same_picture k exp hexp s0 s1 s2 hR hne hfit a1 a2 r s hs n hn hdiv (fun x => decide (t ≤ x)) false f hf G1 G2 (by rw [e]; exact g1) (by rw [e]; exact g2)
    rw [e] at this
    exact this

end

/-- a static map of 4 x 2 bundles with one point in bundle `(0, 0)` -/
def paddedKind : Kind 2 := .static ![2, 1] ![0, 0]
def paddedGeo : Geo ℚ 2 := { r := 1, toMap := id, normal := fun _ => true }
def paddedExp : Multiset (Pt ℚ 2) → Bool := fun s => decide (s.card ≠ 0)
def paddedValue : Multiset (Pt ℚ 2) → Pt ℚ 2 → ℚ := fun s _ => s.card
def paddedRun : Option (St paddedKind.backend (Multiset (Pt ℚ 2))) := gridRun paddedGeo false paddedExp [.insert id [![1/4, 1/4]]] (paddedKind.init _)
theorem padded_runs : paddedRun.isSome = true := by decide +kernel
def paddedMap : St paddedKind.backend (Multiset (Pt ℚ 2)) := paddedRun.get padded_runs

def paddedConv (dflt : ℚ) : St paddedKind.backend (Multiset (Pt ℚ 2)) → Option (Grid ℚ) := toProb 1 (1/2) dflt false paddedValue
def paddedFirst (dflt : ℚ) : Option (St paddedKind.backend (Multiset (Pt ℚ 2)) × Option (Grid ℚ)) := convertRef false paddedExp true (paddedConv dflt) paddedMap none
def paddedSecond (dflt : ℚ) : Option (St paddedKind.backend (Multiset (Pt ℚ 2)) × Option (Grid ℚ)) := (paddedFirst dflt).bind fun e => convertRef false paddedExp true (paddedConv dflt) e.1 e.2

/-- the value of a cell of the target -/
def cellOf (e : Option (St paddedKind.backend (Multiset (Pt ℚ 2)) × Option (Grid ℚ))) (u v : Nat) : Option ℚ := (e.bind fun x => x.2).map fun G => G.cells u v

theorem padded_cells : cellOf (paddedFirst (-1)) 2 0 = some (-1) ∧ cellOf (paddedSecond (-1)) 2 0 = some 0 ∧ cellOf (paddedFirst 0) 0 0 = some 1 ∧ cellOf (paddedSecond 0) 0 0 = some 1 := by decide +kernel

theorem padded_reachable : MapReachable paddedKind paddedExp paddedMap := by
  have h : gridRun paddedGeo paddedKind.dyn paddedExp [.insert id [![1/4, 1/4]]] (paddedKind.init _) = some paddedMap := (Option.some_get padded_runs).symm
  exact grid_reachable paddedGeo paddedKind paddedExp _ _ _ .init h

/-- **C94 (refuted).** Converting a map twice with `allocate_all` and a default value other than 0, without touching it in between, gives two different grids of the same size: a cell that held the default value in the first one
holds 0 in the second one. -/
theorem C94_repeat_refuted : ∃ (s1 s2 : St paddedKind.backend (Multiset (Pt ℚ 2))) (G1 G2 : Grid ℚ), MapReachable paddedKind paddedExp paddedMap ∧ paddedExp default = false ∧
    convertRef false paddedExp true (toProb 1 (1/2) (-1) false paddedValue) paddedMap none = some (s1, some G1) ∧
    convertRef false paddedExp true (toProb 1 (1/2) (-1) false paddedValue) s1 (some G1) = some (s2, some G2) ∧ G1.cells 2 0 = -1 ∧ G2.cells 2 0 = 0 := by
  obtain ⟨h1, h2, -⟩ := padded_cells
  obtain ⟨G1, a1, b1⟩ := Option.map_eq_some_iff.1 h1
  obtain ⟨⟨s1, d1⟩, a1, c1⟩ := Option.bind_eq_some_iff.1 a1
  obtain ⟨G2, a2, b2⟩ := Option.map_eq_some_iff.1 h2
  obtain ⟨⟨s2, d2⟩, a2, c2⟩ := Option.bind_eq_some_iff.1 a2
  cases c1
  cases c2
  unfold paddedSecond at a2
  rw [a1, Option.bind_some] at a2
  exact ⟨s1, s2, G1, G2, padded_reachable, rfl, a1, a2, b1, b2⟩

/-- Non-vacuity of `C94_second_conversion_partial`, `C94_third_conversion_partial` and `C94_source_kept`: two conversions of the map above with the default value 0 exist, all other hypotheses hold, and a cell is occupied. -/
example : (∃ s1 s2 G1 G2, convertRef paddedKind.dyn paddedExp true (toProb (1 : ℚ) (1/2) 0 false paddedValue) paddedMap none = some (s1, some G1) ∧
      convertRef paddedKind.dyn paddedExp true (toProb (1 : ℚ) (1/2) 0 false paddedValue) s1 (some G1) = some (s2, some G2) ∧ G1.cells 0 0 = 1 ∧ G2.cells 0 0 = 1) ∧
    (∀ size lo, paddedKind = .static size lo → ∀ a, 2 * size a ≤ 2147483647) ∧ (1 : ℚ) / 2 = ((1 : Nat) : ℚ) * (1/2) ∧ (∀ x p, paddedExp x = false → paddedValue x p = 0) := by
  obtain ⟨-, -, h1, h2⟩ := padded_cells
  obtain ⟨G1, a1, b1⟩ := Option.map_eq_some_iff.1 h1
  obtain ⟨⟨s1, d1⟩, a1, c1⟩ := Option.bind_eq_some_iff.1 a1
  obtain ⟨G2, a2, b2⟩ := Option.map_eq_some_iff.1 h2
  obtain ⟨⟨s2, d2⟩, a2, c2⟩ := Option.bind_eq_some_iff.1 a2
  cases c1
  cases c2
  unfold paddedSecond at a2
  rw [a1, Option.bind_some] at a2
  refine ⟨⟨s1, s2, G1, G2, a1, a2, b1, b2⟩, ?_, by norm_num, ?_⟩
  · intro size lo h a
    cases h
    fin_cases a <;> decide
  · intro x p h
    have : Multiset.card x = 0 := by simpa [paddedExp] using h
    simp [paddedValue, this]

/-! ### point clouds -/

section
variable {F : Type} {B : Backend 3}

theorem cloudItems_model (cast : ℝ → F) (T : Pt ℝ 3 → Pt ℝ 3) (dens : Multiset (Pt ℝ 3) → Pt ℝ 3 → ℝ) (m : Ivm) (threshold : ℝ) : ∀ (l : List (Idx 3 × Occ Nat (Pt ℝ 3))) (tmp : List F),
    cloudItems cast T dens (some m) threshold l tmp = .ok (l.foldl (fun tmp e => if e.2.occupancy m < threshold then tmp
      else match e.2.data with
        | none => tmp
        | some s => pushPoint cast tmp (T (meanPoint s)) (dens s (meanPoint s) * e.2.occupancy m)) tmp)
  | [], tmp => rfl
  | e :: l, tmp => by
    simp only [cloudItems, cloudItem, Occ.occupancyPtr, List.foldl_cons]
    by_cases h : e.2.occupancy m < threshold
    · simp only [if_pos h]
      exact cloudItems_model cast T dens m threshold l tmp
    · simp only [if_neg h]
      cases e.2.data with
      | none => exact cloudItems_model cast T dens m threshold l tmp
      | some s => exact cloudItems_model cast T dens m threshold l _

/-- **C94** (point clouds, with a model). With a model, the export of an occupancy map returns the cloud of C69; the source is as after the optional allocation. Without a source nothing happens. -/
theorem C94_cloud (C : Float32 F) (dyn : Bool) (exp : Occ Nat (Pt ℝ 3) → Bool) (cast : ℝ → F) (T : Pt ℝ 3 → Pt ℝ 3) (dens : Multiset (Pt ℝ 3) → Pt ℝ 3 → ℝ) (threshold : ℝ) (all : Bool) (dst : PointCloud2) :
    (∀ model, cloudOccPtr (B := B) C dyn exp cast T dens model threshold all none dst = some (.returned none dst)) ∧
    (∀ (m : Ivm) (st st' : St B (Occ Nat (Pt ℝ 3))), allocateAll dyn exp all st = some st' →
      cloudOccPtr C dyn exp cast T dens (some m) threshold all (some st) dst = some (.returned (some st') (cloudMessage C (cloudOcc cast T dens (Occ.occupancy m) threshold st')))) := by
  refine ⟨fun _ => rfl, fun m st st' h => ?_⟩
  unfold cloudOccPtr cloudOccRef
  simp only [h, Option.map_some]
  rw [cloudItems_model]
  refine congrArg (fun l => some (Exit.returned (some st') (cloudMessage C l))) ?_
  unfold cloudOcc
  congr 1
  funext tmp e
  by_cases hlt : e.2.occupancy m < threshold
  · rw [if_pos hlt, if_pos hlt]
  · rw [if_neg hlt, if_neg hlt]
    cases e.2.data <;> rfl

/-- without a model, the first distribution throws -/
theorem cloud_throws (C : Float32 F) (dyn : Bool) (exp : Occ Nat (Pt ℝ 3) → Bool) (cast : ℝ → F) (T : Pt ℝ 3 → Pt ℝ 3) (dens : Multiset (Pt ℝ 3) → Pt ℝ 3 → ℝ) (threshold : ℝ) (all : Bool) (dst : PointCloud2)
    (st st' : St B (Occ Nat (Pt ℝ 3))) (h : allocateAll dyn exp all st = some st') :
    (st'.items ≠ [] → cloudOccPtr C dyn exp cast T dens none threshold all (some st) dst = some (.thrown "inverse model not set!" (some st') dst)) ∧
    (st'.items = [] → cloudOccPtr C dyn exp cast T dens none threshold all (some st) dst = some (.returned (some st') (cloudMessage C []))) := by
  constructor
  · intro hne
    unfold cloudOccPtr cloudOccRef
    simp only [h, Option.map_some]
    cases hi : st'.items with
    | nil => exact absurd hi hne
    | cons e l => rfl
  · intro hi
    unfold cloudOccPtr cloudOccRef
    simp only [h, Option.map_some, hi]
    rfl

end

/-- a static 3D occupancy map with one point at the origin -/
def soloKind : Kind 3 := .static (fun _ => 2) (fun _ => 0)
def soloExp : Occ Nat (Pt ℝ 3) → Bool := fun o => o.data.isSome
noncomputable def soloRun : Option (St soloKind.backend (Occ Nat (Pt ℝ 3))) := updateList false [(fun _ => 1, Occ.updateOccupiedPoint fun _ => 0)] (soloKind.init _)
theorem solo_runs : soloRun.isSome = true := by decide +kernel
noncomputable def soloMap : St soloKind.backend (Occ Nat (Pt ℝ 3)) := soloRun.get solo_runs
theorem solo_alloc : (allocateAll false soloExp true soloMap).isSome = true := by decide +kernel
noncomputable def soloAll : St soloKind.backend (Occ Nat (Pt ℝ 3)) := (allocateAll false soloExp true soloMap).get solo_alloc
theorem solo_facts : soloAll.items.isEmpty = false ∧ (fun _ => 2) ∉ soloMap.bundleIndices ∧ (fun _ => 2) ∈ soloAll.bundleIndices := by decide +kernel

/-- **C94 (refuted for point clouds).** The export of a 3D occupancy map without a model does not return with everything unchanged: it throws, and with `allocate_all` the source has been extended by then. (The target is unchanged.) -/
theorem C94_cloud_without_model_refuted {F : Type} (C : Float32 F) (cast : ℝ → F) (T : Pt ℝ 3 → Pt ℝ 3) (dens : Multiset (Pt ℝ 3) → Pt ℝ 3 → ℝ) (threshold : ℝ) (dst : PointCloud2) :
    ∃ (st st' : St soloKind.backend (Occ Nat (Pt ℝ 3))), MapReachable soloKind soloExp st ∧
      cloudOccPtr C soloKind.dyn soloExp cast T dens none threshold true (some st) dst = some (.thrown "inverse model not set!" (some st') dst) ∧
      (fun _ => 2) ∉ st.bundleIndices ∧ (fun _ => 2) ∈ st'.bundleIndices := by
  have h1 : updateList false [(fun _ => 1, Occ.updateOccupiedPoint fun _ => 0)] (soloKind.init (Occ Nat (Pt ℝ 3))) = some soloMap := (Option.some_get solo_runs).symm
  have h2 : allocateAll false soloExp true soloMap = some soloAll := (Option.some_get solo_alloc).symm
  refine ⟨soloMap, soloAll, .updates _ _ _ .init ?_ h1, (cloud_throws C false soloExp cast T dens threshold true dst soloMap soloAll h2).1 ?_, solo_facts.2.1, solo_facts.2.2⟩
  · intro e he
    rw [List.mem_singleton] at he
    subst he
    decide +kernel
  · intro hne
    have := solo_facts.1
    rw [hne] at this
    cases this

end Ndt
