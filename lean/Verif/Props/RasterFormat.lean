import Verif.Proofs.RasterFormat
import Verif.Props.AnyMap

/-! Property theorem C119: which sampling resolutions a raster can be computed with, over the whole range of `float` and `double`. -/

namespace Ndt
open St Spec

section
variable {K : Type} [Field K] [LinearOrder K] [IsStrictOrderedRing K] [FloorRing K] {D V : Type} [Inhabited D] {T : Format}

/-! ### Unusable sampling resolutions -/

omit [IsStrictOrderedRing K] [Inhabited D] in
theorem rasterizeF_chunk {B : Backend 2} (T : Format) (r : K) (s : Fl K) (dflt : V) (val : Bundle → Pt (Fl K) 2 → (Fin 2 → Fl K) → V) (st : St B D) (h : chunkStepF T r s = none) :
    rasterizeF T r s dflt val st = none := by
  unfold rasterizeF
  rw [h]
  split <;> simp_all

omit [IsStrictOrderedRing K] [Inhabited D] in
/-- **C119** (NaN and zero). With the sampling resolution NaN or zero the conversion is undefined, for every map. -/
theorem C119_nan_zero {B : Backend 2} (T : Format) (r : K) (dflt : V) (val : Bundle → Pt (Fl K) 2 → (Fin 2 → Fl K) → V) (st : St B D) :
    rasterizeF T r .nan dflt val st = none ∧ rasterizeF T r (.fin 0) dflt val st = none := by
  refine ⟨rasterizeF_chunk _ _ _ _ _ _ ?_, rasterizeF_chunk _ _ _ _ _ _ ?_⟩
  · unfold chunkStepF Format.div
    generalize bundleResolutionF T r = y
    cases y <;> rfl
  · unfold chunkStepF Format.div
    generalize bundleResolutionF T r = y
    cases y with
    | nan => rfl
    | inf a => rfl
    | fin x =>
      have : Fl.div (.fin x) (.fin (0 : K)) = .nan ∨ Fl.div (.fin x) (.fin (0 : K)) = .inf (decide (x < 0)) := by
        show (if (0 : K) = 0 then _ else _) = _ ∨ (if (0 : K) = 0 then _ else _) = _
        rw [if_pos rfl]
        by_cases h : x = 0
        · left; rw [if_pos h]
        · right; rw [if_neg h]
      rcases this with h | h <;> rw [h] <;> rfl

/-- a quotient beyond the range of `int` -/
theorem chunkStepF_fine (hT : T = .single ∨ T = .double) {r s : K} (hr : InFormat T r) (h1 : (2 : K) ^ (-30 : Int) ≤ r) (h2 : r ≤ (2 : K) ^ (30 : Int)) (hs : 0 < s) (hf : (2 : K) ^ (31 : Int) * s ≤ r / 2) :
    chunkStepF T r (.fin s) = none := by
  obtain ⟨ht, _⟩ := scalar_facts hT
  obtain ⟨a, _⟩ := edge_fin hT ht hr h1 h2
  have hw : T.emin ≤ 31 ∧ 31 < T.emax := by rcases hT with rfl | rfl <;> decide
  have hp : (0 : K) < (2 : K) ^ (31 : Int) := zpow_pos two_pos _
  have hq : (2 : K) ^ (31 : Int) ≤ r / 2 / s := by rwa [le_div_iff₀ hs]
  unfold chunkStepF Format.div
  rw [a, Fl.div_fin hs.ne']
  show flTrunc (T.round _) = none
  rcases round_nonneg hT (hp.le.trans hq) with h | ⟨y, h, hy, _⟩
  · rw [h]; rfl
  · rw [h]
    have hm := T.nearest_mono ht hp.le hq
    rw [T.nearest_fix ht hp.le (pow_inFormat hT hw.1 hw.2), ← hy] at hm
    show toInt _ = none
    rw [if_neg (not_lt.2 (hp.le.trans hm))]
    refine Format.toInt_large (Or.inl ?_)
    rw [Int.le_floor]
    refine le_trans (le_of_eq ?_) hm
    rw [show (31 : Int) = ((31 : Nat) : Int) from rfl, zpow_natCast]; norm_num

/-- **C119** (too fine). If 2^31 cells or more fit into the edge of a bundle, the conversion is undefined, for every map; this holds for subnormal sampling resolutions, too, where the quotient may overflow. -/
theorem C119_too_fine {B : Backend 2} (hT : T = .single ∨ T = .double) {r s : K} (hr : InFormat T r) (h1 : (2 : K) ^ (-30 : Int) ≤ r) (h2 : r ≤ (2 : K) ^ (30 : Int)) (hs : 0 < s)
    (hf : 2147483648 * s ≤ r / 2) (dflt : V) (val : Bundle → Pt (Fl K) 2 → (Fin 2 → Fl K) → V) (st : St B D) : rasterizeF T r (.fin s) dflt val st = none := by
  refine rasterizeF_chunk _ _ _ _ _ _ (chunkStepF_fine hT hr h1 h2 hs ?_)
  rw [show (31 : Int) = ((31 : Nat) : Int) from rfl, zpow_natCast]
  norm_num; exact hf

omit [IsStrictOrderedRing K] [Inhabited D] in
/-- **C119** (too many cells). If the last column or row of a bundle has an index of 2^31 or more, the conversion is undefined: the index is computed in `int`, although it is stored in `std::size_t`. -/
theorem C119_too_many_cells {B : Backend 2} (T : Format) (r : K) (s : Fl K) (n : Nat) (hn : chunkStepF T r s = some (n : Int)) (st : St B D) (b : Idx 2) (hb : b ∈ st.bundleIndices) (a : Fin 2)
    (h : 2147483648 < (b a - st.minB a + 1) * (n : Int)) (dflt : V) (val : Bundle → Pt (Fl K) 2 → (Fin 2 → Fl K) → V) : rasterizeF T r s dflt val st = none := by
  have hn0 : 0 < n := by
    rcases Nat.eq_zero_or_pos n with rfl | h0
    · simp at h
    · exact h0
  have hmem : none ∈ rasterWritesF T r s n val st := by
    obtain ⟨⟨b', bd⟩, he, heb⟩ := List.mem_map.1 hb
    simp only at heb
    subst heb
    unfold rasterWritesF
    rw [List.mem_flatMap]
    refine ⟨(b', bd), he, ?_⟩
    unfold rasterCellsF
    have hc := cellIndexF_none hn0 h
    rw [List.mem_flatMap]
    fin_cases a
    · refine ⟨n - 1, List.mem_range.2 (by omega), List.mem_map.2 ⟨0, List.mem_range.2 hn0, ?_⟩⟩
      simp only [Fin.zero_eta, Fin.isValue] at hc
      rw [hc]; rfl
    · refine ⟨0, List.mem_range.2 hn0, List.mem_map.2 ⟨n - 1, List.mem_range.2 (by omega), ?_⟩⟩
      simp only [Fin.mk_one, Fin.isValue] at hc
      rw [hc]
      rw [Option.bind_eq_none_iff]
      intro u _; rfl
  unfold rasterizeF
  rw [hn]
  split
  · rename_i e
    obtain rfl := Option.some.inj e
    exact Grid.perform_none _ (by simpa using hmem) _
  · rfl

/-! ### Sampling resolutions without any cell -/

theorem width_le (hT : T = .single ∨ T = .double) {r : K} (hr : InFormat T r) (h1 : (2 : K) ^ (-30 : Int) ≤ r) (h2 : r ≤ (2 : K) ^ (30 : Int)) {x : Int} (hx : 0 ≤ x) (hx' : x ≤ 2147483647) :
    ∃ m, T.mul (T.round (x : K)) (bundleResolutionF T r) = .fin m ∧ 0 ≤ m ∧ m ≤ (r / 2) * (2 : K) ^ (31 : Int) ∧ (0 < x → 0 < m) := by
  obtain ⟨ht, _⟩ := scalar_facts hT
  obtain ⟨a, _, l1, l2, _⟩ := edge_fin hT ht hr h1 h2
  have hw : T.emin ≤ 31 + 29 ∧ (31 : Int) + 29 < T.emax ∧ T.emin ≤ -31 := by rcases hT with rfl | rfl <;> decide
  have hr0 : 0 < r / 2 := lt_of_lt_of_le (zpow_pos two_pos _) l1
  obtain ⟨x1, x2, _, x4⟩ := int_round (K := K) hT (x := x) (by rw [abs_of_nonneg hx]; omega)
  obtain ⟨m1, m2, m3⟩ := mulK hT hw.1 hw.2.1 x2 (b := r / 2) (by rw [abs_of_pos hr0]; exact l2) (x4.imp (fun h => by rw [h, Int.cast_zero, toBits_zero]) id)
    (by rw [abs_of_pos hr0]; exact (zpow_le_zpow_right₀ one_le_two hw.2.2).trans l1)
  have x0 : 0 ≤ toBits T.t (x : K) := toBits_nonneg T.t (by exact_mod_cast hx)
  rw [abs_of_nonneg x0] at x2 x4
  refine ⟨_, by rw [a, x1, m1], toBits_nonneg T.t (mul_nonneg x0 hr0.le), ?_, ?_⟩
  · have e : toBits T.t (r / 2 * (2 : K) ^ (31 : Int)) = r / 2 * (2 : K) ^ (31 : Int) := by
      rw [toBits_scale]
      have : toBits T.t (r * (2 : K) ^ (-1 : Int)) = r * (2 : K) ^ (-1 : Int) := by rw [toBits_scale, hr.toBits ht]
      rw [zpow_neg, zpow_one, ← div_eq_mul_inv] at this
      rw [this]
    have := toBits_mono T.t ht _ _ (show toBits T.t (x : K) * (r / 2) ≤ (r / 2) * (2 : K) ^ (31 : Int) by rw [mul_comm]; exact mul_le_mul_of_nonneg_left x2 hr0.le)
    rwa [e] at this
  · intro h
    have := x4.resolve_left (by omega)
    exact Format.toBits_pos T.t ht (mul_pos (by linarith) hr0)

omit [IsStrictOrderedRing K] [Inhabited D] in
theorem rasterExtentF_count {B : Backend 2} (T : Format) (r : K) (s : Fl K) (st : St B D) (a : Fin 2) (h : st.minB a ≤ st.maxB a) (h' : st.maxB a - st.minB a < 2147483647) :
    rasterExtentF T r s st a = flCeilSize (T.div (T.mul (T.round ((st.maxB a - st.minB a + 1 : Int) : K)) (bundleResolutionF T r)) s) := by
  unfold rasterExtentF intSub
  rw [if_pos (by omega)]
  simp only
  rw [if_pos (by omega)]

/-- **C119** (coarse). If the sampling resolution exceeds the edge of a bundle, however little, nothing of the map is shown: the conversion is defined, and every cell holds the default. -/
theorem C119_coarse (hT : T = .single ∨ T = .double) (k : Kind 2) (exp : D → Bool) (st : St k.backend D) (hR : MapReachable k exp st) (hne : st.bundleIndices ≠ [])
    (hfit : ∀ size lo, k = .static size lo → ∀ a, 2 * size a ≤ 2147483647) {r s : K} (hr : InFormat T r) (h1 : (2 : K) ^ (-30 : Int) ≤ r) (h2 : r ≤ (2 : K) ^ (30 : Int)) (hs : InFormat T s) (hc : r / 2 < s)
    (dflt : V) (val : Bundle → Pt (Fl K) 2 → (Fin 2 → Fl K) → V) : ∃ G, rasterizeF T r (.fin s) dflt val st = some G ∧ ∀ u v, G.cells u v = dflt := by
  obtain ⟨ht, _⟩ := scalar_facts hT
  obtain ⟨a, _, l1, l2, ff⟩ := edge_fin hT ht hr h1 h2
  have hr0 : 0 < r / 2 := lt_of_lt_of_le (zpow_pos two_pos _) l1
  have hs0 : 0 < s := hr0.trans hc
  have hb := raster_bounds hR hne hfit
  have hw : T.emin ≤ 31 ∧ 31 < T.emax := by rcases hT with rfl | rfl <;> decide
  have hchunk : chunkStepF T r (.fin s) = some 0 := by
    obtain ⟨y, hy, y0, y1⟩ := quotient_below hT ff hs hr0 hc
    unfold chunkStepF Format.div
    rw [a, Fl.div_fin hs0.ne']
    show flTrunc (T.round _) = _
    rw [hy]
    show toInt _ = _
    rw [if_neg (not_lt.2 y0), Int.floor_eq_zero_iff.2 ⟨y0, y1⟩]; rfl
  have hext : ∀ a, ∃ w, rasterExtentF T r (.fin s) st a = some w := by
    intro a
    rw [rasterExtentF_count T r (.fin s) st a (hb a).1 (hb a).2.1]
    obtain ⟨m, hm, m0, m1, _⟩ := width_le (K := K) hT hr h1 h2 (x := st.maxB a - st.minB a + 1) (by have := (hb a).1; omega) (by have := (hb a).2.1; omega)
    rw [hm]
    unfold Format.div
    rw [Fl.div_fin hs0.ne']
    have q1 : m / s ≤ (2 : K) ^ (31 : Int) := by
      rw [div_le_iff₀ hs0, mul_comm]
      exact m1.trans (mul_le_mul_of_nonneg_right hc.le (zpow_pos two_pos _).le)
    have q0 : 0 ≤ m / s := div_nonneg m0 hs0.le
    obtain ⟨r1, r2, _⟩ := round_bounded hT hw.1 hw.2 (x := m / s) (by rwa [abs_of_nonneg q0])
    have r0 := T.nearest_nonneg ht q0
    rw [abs_of_nonneg r0] at r2
    show ∃ w, flCeilSize (T.round _) = some w
    rw [r1]
    refine ⟨_, if_pos ⟨Int.ceil_nonneg r0, ?_⟩⟩
    have : ⌈T.nearest (m / s)⌉ ≤ 2147483648 := by
      rw [Int.ceil_le]
      refine r2.trans (le_of_eq ?_)
      rw [show (31 : Int) = ((31 : Nat) : Int) from rfl, zpow_natCast]; norm_num
    omega
  obtain ⟨w, hw'⟩ := hext 0
  obtain ⟨h, hh⟩ := hext 1
  refine ⟨⟨w, h, fun _ _ => dflt⟩, ?_, fun _ _ => rfl⟩
  unfold rasterizeF
  rw [hw', hh, hchunk]
  show Grid.perform (rasterWritesF T r (.fin s) (0 : Int).toNat val st) _ = _
  have : rasterWritesF T r (.fin s) (0 : Int).toNat val st = [] := by
    unfold rasterWritesF
    rw [List.flatMap_eq_nil_iff]
    intro e _; rfl
  rw [this]; rfl

/-- **C119** (infinite). With an infinite sampling resolution the target has no cells. -/
theorem C119_infinite (hT : T = .single ∨ T = .double) (k : Kind 2) (exp : D → Bool) (st : St k.backend D) (hR : MapReachable k exp st) (hne : st.bundleIndices ≠ [])
    (hfit : ∀ size lo, k = .static size lo → ∀ a, 2 * size a ≤ 2147483647) {r : K} (hr : InFormat T r) (h1 : (2 : K) ^ (-30 : Int) ≤ r) (h2 : r ≤ (2 : K) ^ (30 : Int)) (neg : Bool)
    (dflt : V) (val : Bundle → Pt (Fl K) 2 → (Fin 2 → Fl K) → V) : ∃ G, rasterizeF T r (.inf neg) dflt val st = some G ∧ G.width = 0 ∧ G.height = 0 := by
  obtain ⟨ht, _⟩ := scalar_facts hT
  obtain ⟨a, _⟩ := edge_fin hT ht hr h1 h2
  have hb := raster_bounds hR hne hfit
  have z : T.conv (.fin (0 : K)) = .fin 0 := by
    show T.round 0 = _
    unfold Format.round
    rw [T.nearest_zero, if_pos (by rw [abs_zero]; exact zpow_pos two_pos _)]
  have hext : ∀ a, rasterExtentF T r (.inf neg) st a = some 0 := by
    intro a
    rw [rasterExtentF_count T r (.inf neg) st a (hb a).1 (hb a).2.1]
    obtain ⟨m, hm, _⟩ := width_le (K := K) hT hr h1 h2 (x := st.maxB a - st.minB a + 1) (by have := (hb a).1; omega) (by have := (hb a).2.1; omega)
    rw [hm]
    show flCeilSize (T.conv (.fin 0)) = _
    rw [z]
    show (if 0 ≤ ⌈(0 : K)⌉ ∧ _ then some ⌈(0 : K)⌉.toNat else none) = _
    rw [Int.ceil_zero]; rfl
  have hchunk : chunkStepF T r (.inf neg) = some 0 := by
    unfold chunkStepF Format.div
    rw [a]
    show flTrunc (T.conv (.fin 0)) = _
    rw [z]
    show toInt (if (0 : K) < 0 then _ else ⌊(0 : K)⌋) = _
    rw [if_neg (lt_irrefl _), Int.floor_zero]; rfl
  refine ⟨⟨0, 0, fun _ _ => dflt⟩, ?_, rfl, rfl⟩
  unfold rasterizeF
  rw [hext 0, hext 1, hchunk]
  show Grid.perform (rasterWritesF T r (.inf neg) (0 : Int).toNat val st) _ = _
  have : rasterWritesF T r (.inf neg) (0 : Int).toNat val st = [] := by
    unfold rasterWritesF
    rw [List.flatMap_eq_nil_iff]
    intro e _; rfl
  rw [this]; rfl

/-- **C119** (negative). With a negative sampling resolution the conversion is undefined or yields a target without cells. -/
theorem C119_negative (hT : T = .single ∨ T = .double) (k : Kind 2) (exp : D → Bool) (st : St k.backend D) (hR : MapReachable k exp st) (hne : st.bundleIndices ≠ [])
    (hfit : ∀ size lo, k = .static size lo → ∀ a, 2 * size a ≤ 2147483647) {r s : K} (hr : InFormat T r) (h1 : (2 : K) ^ (-30 : Int) ≤ r) (h2 : r ≤ (2 : K) ^ (30 : Int)) (hs : s < 0)
    (dflt : V) (val : Bundle → Pt (Fl K) 2 → (Fin 2 → Fl K) → V) :
    (∀ G, rasterizeF T r (.fin s) dflt val st = some G → G.width = 0 ∧ G.height = 0) ∧ (-(r / 2) ≤ s → rasterizeF T r (.fin s) dflt val st = none) := by
  obtain ⟨ht, _⟩ := scalar_facts hT
  have hb := raster_bounds hR hne hfit
  have hw : T.emin ≤ 0 ∧ 0 < T.emax := by rcases hT with rfl | rfl <;> decide
  obtain ⟨_, _, l1, l2, _⟩ := edge_fin hT ht hr h1 h2
  have hr0 : 0 < r / 2 := lt_of_lt_of_le (zpow_pos two_pos _) l1
  -- the extents
  have hext : ∀ a w, rasterExtentF T r (.fin s) st a = some w → w = 0 := by
    intro a w h
    rw [rasterExtentF_count T r (.fin s) st a (hb a).1 (hb a).2.1] at h
    obtain ⟨m, hm, m0, _⟩ := width_le (K := K) hT hr h1 h2 (x := st.maxB a - st.minB a + 1) (by have := (hb a).1; omega) (by have := (hb a).2.1; omega)
    rw [hm] at h
    unfold Format.div at h
    rw [Fl.div_fin hs.ne] at h
    change flCeilSize (T.round (m / s)) = some w at h
    have q0 : m / s ≤ 0 := div_nonpos_of_nonneg_of_nonpos m0 hs.le
    unfold Format.round at h
    split at h
    · change (if _ then some _ else none) = some w at h
      split at h
      · rename_i hc
        have n0 : T.nearest (m / s) ≤ 0 := by
          have := T.nearest_mono' ht q0
          rwa [T.nearest_zero] at this
        have : ⌈T.nearest (m / s)⌉ ≤ 0 := by rw [Int.ceil_le, Int.cast_zero]; exact n0
        have e := Option.some.inj h
        omega
      · cases h
    · cases h
  have hneg : -(r / 2) ≤ s → rasterExtentF T r (.fin s) st 0 = none := by
    intro hlow
    rw [rasterExtentF_count T r (.fin s) st 0 (hb 0).1 (hb 0).2.1]
    obtain ⟨m, hm, m0, _⟩ := width_le (K := K) hT hr h1 h2 (x := st.maxB 0 - st.minB 0 + 1) (by have := (hb 0).1; omega) (by have := (hb 0).2.1; omega)
    have hm1 : r / 2 ≤ m := by
      obtain ⟨a, _, _, _, ff⟩ := edge_fin hT ht hr h1 h2
      obtain ⟨x1, _, _, x4⟩ := int_round (K := K) hT (x := st.maxB 0 - st.minB 0 + 1) (by rw [abs_of_nonneg (by have := (hb 0).1; omega)]; have := (hb 0).2.1; omega)
      have x0 : 0 ≤ toBits T.t ((st.maxB 0 - st.minB 0 + 1 : Int) : K) := toBits_nonneg T.t (by exact_mod_cast (show 0 ≤ st.maxB 0 - st.minB 0 + 1 by have := (hb 0).1; omega))
      rw [abs_of_nonneg x0] at x4
      have x5 := x4.resolve_left (by have := (hb 0).1; omega)
      rw [a, x1] at hm
      change T.round (toBits T.t ((st.maxB 0 - st.minB 0 + 1 : Int) : K) * (r / 2)) = _ at hm
      unfold Format.round at hm
      split at hm
      · rw [← Fl.fin.inj hm]
        have := T.nearest_mono ht hr0.le (show r / 2 ≤ toBits T.t ((st.maxB 0 - st.minB 0 + 1 : Int) : K) * (r / 2) by nlinarith)
        rwa [T.nearest_fix ht hr0.le ff] at this
      · cases hm
    rw [hm]
    unfold Format.div
    rw [Fl.div_fin hs.ne]
    show flCeilSize (T.round (m / s)) = none
    have q1 : m / s ≤ -1 := by
      rw [div_le_iff_of_neg hs]; linarith
    unfold Format.round
    split
    · show (if _ then some _ else none) = none
      rw [if_neg]
      rintro ⟨c0, _⟩
      have n1 : T.nearest (m / s) ≤ -1 := by
        have := T.nearest_mono' ht q1
        rwa [T.nearest_neg, nearest_one hT] at this
      have : ⌈T.nearest (m / s)⌉ ≤ -1 := by rw [Int.ceil_le]; push_cast; exact n1
      omega
    · rfl
  constructor
  · intro G hG
    unfold rasterizeF at hG
    split at hG
    · rename_i w h n e0 e1 e2
      have w0 := hext 0 w e0
      have h0 := hext 1 h e1
      subst w0 h0
      -- performing writes keeps the extents
      have keep : ∀ (l : List (Option (List (Int × Int × V)))) (g g' : Grid V), Grid.perform l g = some g' → g'.width = g.width ∧ g'.height = g.height := by
        have keep1 : ∀ (l : List (Int × Int × V)) (g g' : Grid V), Grid.writeAll l g = some g' → g'.width = g.width ∧ g'.height = g.height := by
          intro l
          induction l with
          | nil => intro g g' h; cases h; exact ⟨rfl, rfl⟩
          | cons e l ih =>
            obtain ⟨u, v, x⟩ := e
            intro g g' h
            obtain ⟨g1, hw1, h⟩ := Option.bind_eq_some_iff.1 (show (g.write u v x).bind (Grid.writeAll l) = some g' from h)
            unfold Grid.write at hw1
            split at hw1
            · cases hw1; have := ih _ g' h; exact this
            · cases hw1
        intro l
        induction l with
        | nil => intro g g' h; cases h; exact ⟨rfl, rfl⟩
        | cons e l ih =>
          intro g g' h
          cases e with
          | none => cases h
          | some e =>
            obtain ⟨g1, hw1, h⟩ := Option.bind_eq_some_iff.1 (show (g.writeAll e).bind (Grid.perform l) = some g' from h)
            obtain ⟨a1, a2⟩ := keep1 e g g1 hw1
            obtain ⟨b1, b2⟩ := ih g1 g' h
            exact ⟨b1.trans a1, b2.trans a2⟩
      exact keep _ _ _ hG
    · cases hG
  · intro hlow
    unfold rasterizeF
    rw [hneg hlow]

/-! ### Usable sampling resolutions -/

/-- **C119** (usable). If the sampling resolution is at most the edge of a bundle and the indices of all cells are below 2^31, exponents do not matter: the conversion yields what it yields without bounds on exponents (C78), with the
same places, weights and cells. -/
theorem C119_same (hT : T = .single ∨ T = .double) (ht : 1 ≤ T.t) (k : Kind 2) (exp : D → Bool) (st : St k.backend D) (hR : MapReachable k exp st) (hne : st.bundleIndices ≠ [])
    (hfit : ∀ size lo, k = .static size lo → ∀ a, 2 * size a ≤ 2147483647) (hint : ∀ b ∈ st.bundleIndices, ∀ a, |b a| ≤ 2147483648)
    {r s : K} (hr : InFormat T r) (h1 : (2 : K) ^ (-30 : Int) ≤ r) (h2 : r ≤ (2 : K) ^ (30 : Int)) (hs : 0 < s) (hle : s ≤ r / 2)
    (n : Nat) (hn : chunkStepF T r (.fin s) = some (n : Int)) (hcells : ∀ b ∈ st.bundleIndices, ∀ a, (b a - st.minB a + 1) * (n : Int) ≤ 2147483648)
    (dflt : V) (val : Bundle → Pt (Fl K) 2 → (Fin 2 → Fl K) → V) :
    chunkStepR (ieeeArith K T.t ht) r s = some n ∧
    rasterizeF T r (.fin s) dflt val st = rasterizeR (ieeeArith K T.t ht) r s dflt (fun b p w => val b (fun a => .fin (p a)) (fun a => .fin (w a))) st := by
  obtain ⟨_, _, l1, l2, _⟩ := edge_fin hT ht hr h1 h2
  have hb := raster_bounds hR hne hfit
  have hfine : r / 2 < (2 : K) ^ (31 : Int) * s := by
    by_contra hc
    rw [chunkStepF_fine hT hr h1 h2 hs (not_lt.1 hc)] at hn
    cases hn
  have hp : (0 : K) < (2 : K) ^ (31 : Int) := zpow_pos two_pos _
  have s1 : (2 : K) ^ (-62 : Int) ≤ s := by
    have : (2 : K) ^ (31 : Int) * (2 : K) ^ (-62 : Int) ≤ (2 : K) ^ (31 : Int) * s := by
      rw [← zpow_add₀ two_ne_zero]; exact l1.trans hfine.le
    exact le_of_mul_le_mul_left this hp
  have s1' : (2 : K) ^ (-63 : Int) ≤ s := (zpow_le_zpow_right₀ one_le_two (by norm_num)).trans s1
  have s2 : s ≤ (2 : K) ^ (30 : Int) := (hle.trans l2).trans (zpow_le_zpow_right₀ one_le_two (by norm_num))
  have hq : r / 2 / s ≤ (2 : K) ^ (32 : Int) := by
    rw [div_le_iff₀ hs]
    exact hfine.le.trans (mul_le_mul_of_nonneg_right (zpow_le_zpow_right₀ one_le_two (by norm_num)) hs.le)
  have hchunk : chunkStepR (ieeeArith K T.t ht) r s = some n := by
    rw [chunkStepF_eq hT ht hr h1 h2 s1' s2] at hn
    obtain ⟨m, hm, e⟩ := Option.map_eq_some_iff.1 hn
    rw [hm]
    congr 1
    exact_mod_cast e
  have hn31 : n < 2147483648 := by
    have := ((chunkStepR_eq_some (ieeeArith K T.t ht) r s ((zpow_pos two_pos _).le.trans h1) hs n).1 hchunk).2
    omega
  have hext : ∀ a, rasterExtentF T r (.fin s) st a = some (extentR (ieeeArith K T.t ht) r s (st.maxB a - st.minB a + 1)) := by
    intro a
    rw [rasterExtentF_count T r (.fin s) st a (hb a).1 (hb a).2.1]
    exact extentF_eq hT ht hr h1 h2 s1' s2 hq (by have := (hb a).1; omega) (by have := (hb a).2.1; omega)
  refine ⟨hchunk, ?_⟩
  have hlist : rasterWritesF T r (.fin s) n val st =
      (rasterWritesR (ieeeArith K T.t ht) r s n (fun b p w => val b (fun a => .fin (p a)) (fun a => .fin (w a))) st).map fun e => some [e] := by
    unfold rasterWritesF rasterWritesR
    rw [List.map_flatMap]
    refine List.flatMap_congr fun e he => ?_
    have hm : e.1 ∈ st.bundleIndices := List.mem_map.2 ⟨e, he, rfl⟩
    unfold rasterCellsF rasterCellsR
    rw [List.map_flatMap]
    refine List.flatMap_congr fun i hi => ?_
    rw [List.map_map]
    refine List.map_congr_left fun j hj => ?_
    rw [List.mem_range] at hi hj
    rw [cellIndexF_eq ((hb 0).2.2 _ hm).1 hi (hcells _ hm 0), cellIndexF_eq ((hb 1).2.2 _ hm).1 hj (hcells _ hm 1),
      samplePosF_eq hT ht hr h1 h2 s1 s2 (hint _ hm 0) (by omega), samplePosF_eq hT ht hr h1 h2 s1 s2 (hint _ hm 1) (by omega),
      chunkWeightF_eq hT ht _ hi hn31, chunkWeightF_eq hT ht _ hj hn31]
    simp only [Option.bind_some, Option.map_some, Function.comp]
    congr 5
    · funext a; fin_cases a <;> rfl
    · funext a; fin_cases a <;> rfl
  unfold rasterizeF rasterizeR
  rw [hext 0, hext 1, hn, rasterExtentR_eq _ r s st 0 (hb 0).1 (hb 0).2.1, rasterExtentR_eq _ r s st 1 (hb 1).1 (hb 1).2.1, hchunk]
  simp only [Int.toNat_natCast]
  rw [hlist, Grid.perform_some]

/-! ### Dynamic maps: exactly which conversions are defined -/

/-- **C119** (double). Converting a dynamic map over `double` with a sampling resolution up to the edge of a bundle is defined exactly if less than 2^31 cells fit into the edge of a bundle and no more than 2^31 cells into a row or column of the target. -/
theorem C119_double_iff (g : Nat → Nat) (g' : Nat) (exp : D → Bool) (st : St (octreeBackend 2) D) (hR : MapReachable (.dynamic g g') exp st) (hne : st.bundleIndices ≠ [])
    {r s : K} (hr : InFormat .double r) (h1 : (2 : K) ^ (-30 : Int) ≤ r) (h2 : r ≤ (2 : K) ^ (30 : Int)) (hs : 0 < s) (hle : s ≤ r / 2)
    (dflt : V) (val : Bundle → Pt (Fl K) 2 → (Fin 2 → Fl K) → V) :
    (∃ G, rasterizeF .double r (.fin s) dflt val st = some G) ↔ ∃ n : Nat, chunkStepF .double r (.fin s) = some (n : Int) ∧ ∀ a, (st.maxB a - st.minB a + 1) * (n : Int) ≤ 2147483648 := by
  have hfit : ∀ size lo, Kind.dynamic (d := 2) g g' = .static size lo → ∀ a, 2 * size a ≤ 2147483647 := by intro _ _ h; cases h
  have hb := raster_bounds hR hne hfit
  have hd := dyn_bounds hR.spec.1 hne
  have ht : 1 ≤ Format.double.t := by decide
  have hnn : ∀ n : Int, chunkStepF .double r (.fin s) = some n → 0 ≤ n := by
    intro n hn
    obtain ⟨a, _, l1, _⟩ := edge_fin (Or.inr rfl) ht hr h1 h2
    have hr0 : 0 < r / 2 := lt_of_lt_of_le (zpow_pos two_pos _) l1
    unfold chunkStepF Format.div at hn
    rw [a, Fl.div_fin hs.ne'] at hn
    change flTrunc (Format.double.round _) = _ at hn
    rcases round_nonneg (Or.inr rfl) (div_pos hr0 hs).le with h | ⟨y, h, _, y0⟩
    · rw [h] at hn; cases hn
    · rw [h] at hn
      change toInt _ = _ at hn
      rw [if_neg (not_lt.2 y0)] at hn
      unfold toInt at hn
      split at hn
      · have := Int.floor_nonneg.2 y0
        have e := Option.some.inj hn
        omega
      · cases hn
  constructor
  · rintro ⟨G, hG⟩
    cases hc : chunkStepF .double r (.fin s) with
    | none => rw [rasterizeF_chunk _ _ _ _ _ _ hc] at hG; cases hG
    | some m =>
      obtain ⟨n, rfl⟩ := Int.eq_ofNat_of_zero_le (hnn m hc)
      refine ⟨n, rfl, fun a => ?_⟩
      by_contra hlt
      rcases C13_bounds_tight_any g g' exp st hR with ⟨e, _⟩ | ⟨_, ht⟩
      · obtain ⟨b, hbm⟩ := List.exists_mem_of_ne_nil _ hne
        have : b ∈ {bi | bi ∈ st.bundleIndices} := hbm
        rw [e] at this; exact absurd this (Set.notMem_empty _)
      · obtain ⟨_, ⟨b, hbm, hba⟩, _⟩ := ht a
        have := C119_too_many_cells .double r (.fin s) n hc st b hbm a (by rw [hba]; omega) dflt val
        rw [this] at hG; cases hG
  · rintro ⟨n, hn, hcells⟩
    have hc' : ∀ b ∈ st.bundleIndices, ∀ a, (b a - st.minB a + 1) * (n : Int) ≤ 2147483648 := by
      intro b hbm a
      have := (hb a).2.2 b hbm
      exact (mul_le_mul_of_nonneg_right (show b a - st.minB a + 1 ≤ st.maxB a - st.minB a + 1 by omega) (by omega)).trans (hcells a)
    have hint : ∀ b ∈ st.bundleIndices, ∀ a, |b a| ≤ 2147483648 := by
      intro b hbm a
      have := (hb a).2.2 b hbm
      have := hd a
      rw [abs_le]; omega
    obtain ⟨e1, e2⟩ := C119_same (Or.inr rfl) ht (.dynamic g g') exp st hR hne hfit hint hr h1 h2 hs hle n hn hc' dflt val
    obtain ⟨_, hh, l1, _⟩ := edge_fin (Or.inr rfl) ht hr h1 h2
    have hr0 : 0 < r / 2 := lt_of_lt_of_le (zpow_pos two_pos _) l1
    have hfine : r / 2 < (2 : K) ^ (31 : Int) * s := by
      by_contra hc
      rw [chunkStepF_fine (Or.inr rfl) hr h1 h2 hs (not_lt.1 hc)] at hn
      cases hn
    obtain ⟨G, hG, _⟩ := C78_raster_partial (.dynamic g g') exp st hR hne hfit (ieeeArith K Format.double.t ht) r s (by linarith) hs hh n e1 (fun a => (C78_sizes (K := K) _).2 (by
        have h3 : ((st.maxB a - st.minB a + 1 : Int) : K) ≤ 65536 := by
          have := hd a
          exact_mod_cast (show st.maxB a - st.minB a + 1 ≤ 65536 by omega)
        have h4 : r / 2 / s ≤ 2147483648 := by
          rw [div_le_iff₀ hs]
          refine hfine.le.trans (le_of_eq ?_)
          rw [show (31 : Int) = ((31 : Nat) : Int) from rfl, zpow_natCast]; norm_num
        calc ((st.maxB a - st.minB a + 1 : Int) : K) * (r / 2 / s) ≤ 65536 * 2147483648 := mul_le_mul h3 h4 (div_pos hr0 hs).le (by norm_num)
          _ ≤ _ := by norm_num)) dflt (fun b p w => val b (fun a => .fin (p a)) (fun a => .fin (w a)))
    exact ⟨G, by rw [e2]; exact hG⟩

end

/-! ### The hypotheses are met -/

def strip65536 : St (octreeBackend 2) Unit := (stripOps (-32768) 32767 ((Kind.dynamic (d := 2) 0 0).init Unit)).get (by decide +kernel)
theorem strip65536_reachable : MapReachable (Kind.dynamic (d := 2) 0 0) (fun _ => true) strip65536 := strip_reachable (Option.some_get _).symm

theorem pow30 : (2 : ℚ) ^ (-30 : Int) ≤ 1 / 2 ∧ (1 / 2 : ℚ) ≤ (2 : ℚ) ^ (30 : Int) := by decide +kernel

theorem half_inFormat : InFormat Format.double (1 / 2 : ℚ) ∧ InFormat Format.single (1 / 2 : ℚ) ∧ InFormat Format.single (3 / 8 : ℚ) ∧ InFormat Format.double (2 : ℚ) :=
  ⟨⟨⟨1, -1, by decide, by decide, by norm_num⟩, by decide +kernel⟩, ⟨⟨1, -1, by decide, by decide, by norm_num⟩, by decide +kernel⟩, ⟨⟨3, -3, by decide, by decide, by norm_num⟩, by decide +kernel⟩,
    ⟨⟨1, 1, by decide, by decide, by norm_num⟩, by decide +kernel⟩⟩

/-- A map of 21 bundles of edge 1/4, over `double`: with the sampling resolution 1/8 the conversion is defined, with two cells per edge; over `float`, with 3/8 nothing is shown; with -1/8, zero and NaN the conversion is undefined. -/
theorem C119_sample :
    (∃ G, rasterizeF .double (1 / 2 : ℚ) (.fin (1 / 8)) (0 : Fl ℚ) (fun _ p _ => p 0) strip20 = some G) ∧ chunkStepF .double (1 / 2 : ℚ) (.fin (1 / 8)) = some 2 ∧
    (∃ G, rasterizeF .single (1 / 2 : ℚ) (.fin (3 / 8)) (0 : Fl ℚ) (fun _ p _ => p 0) strip20 = some G ∧ ∀ u v, G.cells u v = 0) ∧
    rasterizeF .single (1 / 2 : ℚ) (.fin (-1 / 8)) (0 : Fl ℚ) (fun _ p _ => p 0) strip20 = none ∧
    rasterizeF .single (1 / 2 : ℚ) .nan (0 : Fl ℚ) (fun _ p _ => p 0) strip20 = none := by
  have hne : strip20.bundleIndices ≠ [] := by rw [strip20_bundles]; simp
  have hc : chunkStepF .double (1 / 2 : ℚ) (.fin (1 / 8)) = some 2 := by decide +kernel
  refine ⟨?_, hc, ?_, ?_, (C119_nan_zero _ _ _ _ _).1⟩
  · refine (C119_double_iff 0 0 (fun _ => true) strip20 strip20_reachable hne half_inFormat.1 pow30.1 pow30.2 (by norm_num) (by norm_num) _ _).2 ⟨2, hc, by decide +kernel⟩
  · exact C119_coarse (Or.inl rfl) (.dynamic 0 0) (fun _ => true) strip20 strip20_reachable hne (by intro _ _ h; cases h) half_inFormat.2.1 pow30.1 pow30.2 half_inFormat.2.2.1 (by norm_num) _ _
  · exact (C119_negative (Or.inl rfl) (.dynamic 0 0) (fun _ => true) strip20 strip20_reachable hne (by intro _ _ h; cases h) half_inFormat.2.1 pow30.1 pow30.2 (by norm_num) _ _).2 (by norm_num)

/-- A map over `double` of resolution 2 that spans the whole range of indices, sampled with 2^-16 (65536 cells per edge of a bundle): the indices of the cells overflow. -/
theorem C119_overflow_sample (V : Type) (dflt : V) (val : Bundle → Pt (Fl ℚ) 2 → (Fin 2 → Fl ℚ) → V) :
    MapReachable (Kind.dynamic (d := 2) 0 0) (fun _ => true) strip65536 ∧ chunkStepF .double (2 : ℚ) (.fin (1 / 65536)) = some 65536 ∧ rasterizeF .double (2 : ℚ) (.fin (1 / 65536)) dflt val strip65536 = none := by
  have hc : chunkStepF .double (2 : ℚ) (.fin (1 / 65536)) = some ((65536 : Nat) : Int) := by decide +kernel
  refine ⟨strip65536_reachable, hc, ?_⟩
  exact C119_too_many_cells .double 2 _ 65536 hc strip65536 ![32767, 0] (by decide +kernel) 0 (by decide +kernel) dflt val

end Ndt
