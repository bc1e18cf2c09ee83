import Verif.Proofs.Interpolation
import Verif.Props.Sampling
import Verif.Props.Expand
import Verif.Props.OccMap
import Mathlib.Topology.Instances.Real.Lemmas
import Mathlib.Data.Fin.VecNotation

/-! Property theorems C85: the interpolated cost of ceres scan matching (`Flag::INTERPOLATION`). -/

namespace Ndt
open St Abs Matching Topology Filter

section
variable {B : Backend 2} {D : Type}

/-- the interpolated cost as a number (0 where it is not defined) -/
noncomputable def interpValue (g : Geo ℝ 2) (dyn : Bool) (dens : D → Pt ℝ 2 → ℝ) (st : St B D) (s : ℝ) (q : Pt ℝ 2) : ℝ := ((interpJet g dyn dens st s q).map Jet2.value).getD 0
/-- the first derivative returned with it -/
noncomputable def interpDx (g : Geo ℝ 2) (dyn : Bool) (dens : D → Pt ℝ 2 → ℝ) (st : St B D) (s : ℝ) (q : Pt ℝ 2) : ℝ := ((interpJet g dyn dens st s q).map Jet2.dRow).getD 0
/-- the second derivative returned with it -/
noncomputable def interpDy (g : Geo ℝ 2) (dyn : Bool) (dens : D → Pt ℝ 2 → ℝ) (st : St B D) (s : ℝ) (q : Pt ℝ 2) : ℝ := ((interpJet g dyn dens st s q).map Jet2.dCol).getD 0

theorem interpJet_eq (g : Geo ℝ 2) (dyn : Bool) (dens : D → Pt ℝ 2 → ℝ) (st : St B D) (s : ℝ) (q : Pt ℝ 2) (j : Jet2) (h : interpJet g dyn dens st s q = some j) :
    j = ⟨spline (fun i => spline (fun k => (gridValue g dyn dens st s i k).getD 0) (q 1 / s)) (q 0 / s),
      splineSlope (fun i => spline (fun k => (gridValue g dyn dens st s i k).getD 0) (q 1 / s)) (q 0 / s) / s,
      spline (fun i => splineSlope (fun k => (gridValue g dyn dens st s i k).getD 0) (q 1 / s)) (q 0 / s) / s⟩ := by
  unfold interpJet at h
  obtain ⟨j', h1, h2⟩ := Option.map_eq_some_iff.1 h
  have h3 := bicubic_getD _ _ _ _ h1
  rw [bicubic_total] at h3
  rw [← h2, ← Option.some.inj h3]

/-- **C85** (agreement at the grid points). At every multiple of the sampling resolution the cost evaluated with derivatives is the cost evaluated without: one minus the sample of the map at that point. -/
theorem C85_grid_points_partial (g : Geo ℝ 2) (dyn : Bool) (dens : D → Pt ℝ 2 → ℝ) (st : St B D) (s : ℝ) (hs : s ≠ 0) (a b : Int) (j : Jet2)
    (h : interpJet g dyn dens st s ![a * s, b * s] = some j) :
    interpDouble g dyn dens st ![a * s, b * s] = some j.value ∧ ∃ x, st.sampleNNAt g dyn dens ![a * s, b * s] = some x ∧ j.value = 1 - x := by
  have e0 : (![(a : ℝ) * s, (b : ℝ) * s] : Pt ℝ 2) 0 / s = a := by show (a : ℝ) * s / s = a; field_simp
  have e1 : (![(a : ℝ) * s, (b : ℝ) * s] : Pt ℝ 2) 1 / s = b := by show (b : ℝ) * s / s = b; field_simp
  have hj := interpJet_eq g dyn dens st s _ j h
  rw [e0, e1] at hj
  have hv : j.value = (gridValue g dyn dens st s a b).getD 0 := by
    rw [hj]
    dsimp only
    unfold spline piece
    simp only [Int.floor_intCast, sub_self, hermite_zero]
  have hex : ∃ x, st.sampleNNAt g dyn dens ![a * s, b * s] = some x := by
    unfold interpJet at h
    obtain ⟨j', h1, _⟩ := Option.map_eq_some_iff.1 h
    rw [e0, e1] at h1
    unfold bicubic at h1
    dsimp only at h1
    rw [Int.floor_intCast, Int.floor_intCast] at h1
    split at h1
    · rename_i p q s' t _ h2 _ _
      unfold gridRow at h2
      split at h2
      · rename_i _ _ _ _ _ h3 _ _
        unfold gridValue at h3
        obtain ⟨x, h4, _⟩ := Option.map_eq_some_iff.1 h3
        exact ⟨x, h4⟩
      · cases h2
    · cases h1
  obtain ⟨x, hx⟩ := hex
  have hg : gridValue g dyn dens st s a b = some (1 - x) := by unfold gridValue; rw [hx]; rfl
  rw [hg, Option.getD_some] at hv
  refine ⟨?_, x, hx, hv⟩
  unfold interpDouble
  show (st.sampleNNAt g dyn dens ![(a : ℝ) * s, (b : ℝ) * s]).map _ = _
  rw [hx, hv]; rfl

theorem continuous_interp (v : Int → Int → ℝ) (s : ℝ) : (Continuous fun p : Pt ℝ 2 => spline (fun i => spline (v i) (p 1 / s)) (p 0 / s)) ∧
    (Continuous fun p : Pt ℝ 2 => splineSlope (fun i => spline (v i) (p 1 / s)) (p 0 / s) / s) ∧ Continuous fun p : Pt ℝ 2 => spline (fun i => splineSlope (v i) (p 1 / s)) (p 0 / s) / s := by
  have hpr : Continuous fun p : Pt ℝ 2 => (p 0 / s, p 1 / s) := by
    have h0 : Continuous fun p : Pt ℝ 2 => p 0 := continuous_apply 0
    have h1 : Continuous fun p : Pt ℝ 2 => p 1 := continuous_apply 1
    fun_prop
  refine ⟨?_, ?_, ?_⟩
  · exact Continuous.comp (g := fun p : ℝ × ℝ => spline (fun i => spline (v i) p.2) p.1) (continuous_spline_param (fun i => spline (v i)) fun i => continuous_spline (v i)) hpr
  · exact (Continuous.comp (g := fun p : ℝ × ℝ => splineSlope (fun i => spline (v i) p.2) p.1) (continuous_splineSlope_param (fun i => spline (v i)) fun i => continuous_spline (v i)) hpr).div_const s
  · exact (Continuous.comp (g := fun p : ℝ × ℝ => spline (fun i => splineSlope (v i) p.2) p.1) (continuous_spline_param (fun i => splineSlope (v i)) fun i => continuous_splineSlope (v i)) hpr).div_const s

theorem hasDerivAt_interp (v : Int → Int → ℝ) (s x y : ℝ) :
    HasDerivAt (fun t => spline (fun i => spline (v i) (y / s)) (t / s)) (splineSlope (fun i => spline (v i) (y / s)) (x / s) / s) x ∧
    HasDerivAt (fun t => spline (fun i => spline (v i) (t / s)) (x / s)) (spline (fun i => splineSlope (v i) (y / s)) (x / s) / s) y := by
  constructor
  · have h := HasDerivAt.comp (h₂ := spline fun i => spline (v i) (y / s)) x (hasDerivAt_spline (fun i => spline (v i) (y / s)) (x / s)) ((hasDerivAt_id x).div_const s)
    rw [mul_one_div] at h
    exact h
  · have h := HasDerivAt.comp (h₂ := fun t => spline (fun i => spline (v i) t) (x / s)) y
      (hasDerivAt_spline_param (fun i => spline (v i)) (fun i => splineSlope (v i)) (x / s) (y / s) fun i => hasDerivAt_spline (v i) (y / s)) ((hasDerivAt_id y).div_const s)
    rw [mul_one_div] at h
    exact h

/-- **C85** (differentiability). Around every point in whose neighbourhood the interpolated cost is defined, the cost is continuous, the derivatives returned with it are its partial derivatives by the coordinates of the point, and they are
continuous as well – although the samples of the map jump at bundle boundaries. -/
theorem C85_differentiable (g : Geo ℝ 2) (dyn : Bool) (dens : D → Pt ℝ 2 → ℝ) (st : St B D) (s : ℝ) (hs : s ≠ 0) (q : Pt ℝ 2)
    (hdef : ∀ᶠ p in 𝓝 q, (interpJet g dyn dens st s p).isSome = true) :
    ∃ j, interpJet g dyn dens st s q = some j ∧
      HasDerivAt (fun t => interpValue g dyn dens st s ![t, q 1]) j.dRow (q 0) ∧ HasDerivAt (fun t => interpValue g dyn dens st s ![q 0, t]) j.dCol (q 1) ∧
      ContinuousAt (interpValue g dyn dens st s) q ∧ ContinuousAt (interpDx g dyn dens st s) q ∧ ContinuousAt (interpDy g dyn dens st s) q := by
  let v : Int → Int → ℝ := fun i k => (gridValue g dyn dens st s i k).getD 0
  obtain ⟨j, hj⟩ := Option.isSome_iff_exists.1 hdef.self_of_nhds
  have hval : ∀ᶠ p in 𝓝 q, interpValue g dyn dens st s p = spline (fun i => spline (v i) (p 1 / s)) (p 0 / s) ∧
      interpDx g dyn dens st s p = splineSlope (fun i => spline (v i) (p 1 / s)) (p 0 / s) / s ∧
      interpDy g dyn dens st s p = spline (fun i => splineSlope (v i) (p 1 / s)) (p 0 / s) / s := by
    filter_upwards [hdef] with p hp
    obtain ⟨j', hj'⟩ := Option.isSome_iff_exists.1 hp
    have := interpJet_eq g dyn dens st s p j' hj'
    unfold interpValue interpDx interpDy
    rw [hj', this]
    exact ⟨rfl, rfl, rfl⟩
  have hjq := interpJet_eq g dyn dens st s q j hj
  obtain ⟨c1, c2, c3⟩ := continuous_interp v s
  refine ⟨j, hj, ?_, ?_, c1.continuousAt.congr (hval.mono fun p hp => hp.1.symm), c2.continuousAt.congr (hval.mono fun p hp => hp.2.1.symm), c3.continuousAt.congr (hval.mono fun p hp => hp.2.2.symm)⟩
  · have ht : Tendsto (fun t : ℝ => (![t, q 1] : Pt ℝ 2)) (𝓝 (q 0)) (𝓝 q) := by
      have hc : Continuous fun t : ℝ => (![t, q 1] : Pt ℝ 2) := by
        refine continuous_pi fun i => ?_
        fin_cases i
        · exact continuous_id
        · exact continuous_const
      have e : (![q 0, q 1] : Pt ℝ 2) = q := by funext i; fin_cases i <;> rfl
      have := hc.tendsto (q 0)
      rwa [e] at this
    rw [hjq]
    exact (hasDerivAt_interp v s (q 0) (q 1)).1.congr_of_eventuallyEq (f₁ := fun t => interpValue g dyn dens st s ![t, q 1]) ((ht.eventually hval).mono fun t h => h.1)
  · have ht : Tendsto (fun t : ℝ => (![q 0, t] : Pt ℝ 2)) (𝓝 (q 1)) (𝓝 q) := by
      have hc : Continuous fun t : ℝ => (![q 0, t] : Pt ℝ 2) := by
        refine continuous_pi fun i => ?_
        fin_cases i
        · exact continuous_const
        · exact continuous_id
      have e : (![q 0, q 1] : Pt ℝ 2) = q := by funext i; fin_cases i <;> rfl
      have := hc.tendsto (q 1)
      rwa [e] at this
    rw [hjq]
    exact (hasDerivAt_interp v s (q 0) (q 1)).2.congr_of_eventuallyEq (f₁ := fun t => interpValue g dyn dens st s ![q 0, t]) ((ht.eventually hval).mono fun t h => h.1)

theorem gridRow_defined {α : Type} (grid : Int → Int → Option α) (row col : Int) (h : ∀ m, col - 1 ≤ m → m ≤ col + 2 → ∃ x, grid row m = some x) : ∃ p, gridRow grid row col = some p := by
  obtain ⟨a, ha⟩ := h (col - 1) (by omega) (by omega)
  obtain ⟨b, hb⟩ := h col (by omega) (by omega)
  obtain ⟨c, hc⟩ := h (col + 1) (by omega) (by omega)
  obtain ⟨d, hd⟩ := h (col + 2) (by omega) (by omega)
  exact ⟨(a, b, c, d), by unfold gridRow; rw [ha, hb, hc, hd]⟩

theorem interpJet_defined (g : Geo ℝ 2) (dyn : Bool) (dens : D → Pt ℝ 2 → ℝ) (st : St B D) (s : ℝ) (q : Pt ℝ 2)
    (h : ∀ n m : Int, ⌊q 0 / s⌋ - 1 ≤ n → n ≤ ⌊q 0 / s⌋ + 2 → ⌊q 1 / s⌋ - 1 ≤ m → m ≤ ⌊q 1 / s⌋ + 2 → ∃ x, st.sampleNNAt g dyn dens ![n * s, m * s] = some x) :
    ∃ j, interpJet g dyn dens st s q = some j := by
  have hr : ∀ n : Int, ⌊q 0 / s⌋ - 1 ≤ n → n ≤ ⌊q 0 / s⌋ + 2 → ∃ p, gridRow (gridValue g dyn dens st s) n ⌊q 1 / s⌋ = some p := by
    intro n h1 h2
    refine gridRow_defined _ _ _ fun m h3 h4 => ?_
    obtain ⟨x, hx⟩ := h n m h1 h2 h3 h4
    exact ⟨1 - x, by unfold gridValue; rw [hx]; rfl⟩
  obtain ⟨p, hp⟩ := hr (⌊q 0 / s⌋ - 1) (by omega) (by omega)
  obtain ⟨p', hp'⟩ := hr ⌊q 0 / s⌋ (by omega) (by omega)
  obtain ⟨p'', hp''⟩ := hr (⌊q 0 / s⌋ + 1) (by omega) (by omega)
  obtain ⟨p''', hp'''⟩ := hr (⌊q 0 / s⌋ + 2) (by omega) (by omega)
  unfold interpJet bicubic
  dsimp only
  rw [hp, hp', hp'', hp''']
  exact ⟨_, rfl⟩

theorem interpJet_range (g : Geo ℝ 2) (dyn : Bool) (dens : D → Pt ℝ 2 → ℝ) (st : St B D) (s : ℝ) (q : Pt ℝ 2) (j : Jet2)
    (h : ∀ p x, st.sampleNNAt g dyn dens p = some x → 0 ≤ x ∧ x ≤ 1) (hj : interpJet g dyn dens st s q = some j) : -(9 / 32) ≤ j.value ∧ j.value ≤ 41 / 32 := by
  have hv : ∀ i m, (0 : ℝ) ≤ (gridValue g dyn dens st s i m).getD 0 ∧ (gridValue g dyn dens st s i m).getD 0 ≤ 1 := by
    intro i m
    unfold gridValue
    cases e : st.sampleNNAt g dyn dens ![(i : ℝ) * s, (m : ℝ) * s] with
    | none => exact ⟨le_refl _, zero_le_one⟩
    | some x =>
      obtain ⟨h1, h2⟩ := h _ x e
      show 0 ≤ 1 - x ∧ 1 - x ≤ 1
      constructor <;> linarith
  rw [interpJet_eq g dyn dens st s q j hj]
  have h1 : ∀ i, (0 : ℝ) - (1 - 0) / 8 ≤ spline (fun m => (gridValue g dyn dens st s i m).getD 0) (q 1 / s) ∧ spline (fun m => (gridValue g dyn dens st s i m).getD 0) (q 1 / s) ≤ 1 + (1 - 0) / 8 :=
    fun i => spline_range _ (hv i) _
  obtain ⟨h2, h3⟩ := spline_range (fun i => spline (fun m => (gridValue g dyn dens st s i m).getD 0) (q 1 / s)) h1 (q 0 / s)
  constructor <;> [refine le_trans ?_ h2; refine le_trans h3 ?_] <;> norm_num

end

/-- **C85** (definedness, static maps): the interpolated cost of a static map is defined at every point, inside or outside of the map. -/
theorem C85_static_defined (size : Fin 2 → Nat) (lo : Idx 2) (g : Geo ℝ 2) (hr : 0 < g.r) (exp : Multiset (Pt ℝ 2) → Bool) (ops : List (GridOp ℝ 2))
    (st : St (Kind.static size lo).backend (Multiset (Pt ℝ 2))) (h : gridRun g false exp ops ((Kind.static size lo).init _) = some st)
    (dens : Multiset (Pt ℝ 2) → Pt ℝ 2 → ℝ) (s : ℝ) (q : Pt ℝ 2) : ∃ j, interpJet g false dens st s q = some j :=
  interpJet_defined g false dens st s q fun _ _ _ _ _ _ => (C24_static_total size lo g hr exp ops st h dens _).1

/-- **C85** (definedness, dynamic maps): as long as the 4 × 4 grid points around the point lie in the range of the octree, the interpolated cost is defined. -/
theorem C85_dynamic_defined (gb : Nat → Nat) (gb' : Nat) (g : Geo ℝ 2) (exp : Multiset (Pt ℝ 2) → Bool) (ops : List (GridOp ℝ 2))
    (st : St (Kind.dynamic (d := 2) gb gb').backend (Multiset (Pt ℝ 2))) (h : gridRun g true exp ops ((Kind.dynamic gb gb').init _) = some st)
    (dens : Multiset (Pt ℝ 2) → Pt ℝ 2 → ℝ) (s : ℝ) (q : Pt ℝ 2)
    (hq : ∀ n m : Int, ⌊q 0 / s⌋ - 1 ≤ n → n ≤ ⌊q 0 / s⌋ + 2 → ⌊q 1 / s⌋ - 1 ≤ m → m ≤ ⌊q 1 / s⌋ + 2 → Spec.InRange (toBundleIndex g.r (g.toMap ![n * s, m * s]))) :
    ∃ j, interpJet g true dens st s q = some j :=
  interpJet_defined g true dens st s q fun n m h1 h2 h3 h4 => (C24_dynamic_total gb gb' g exp ops st h dens _ (hq n m h1 h2 h3 h4)).1

/-- **C85** (range). With densities in `[0, 1]` the interpolated cost stays in `[-9/32, 41/32]`, on all maps, for all sampling resolutions, at all points. The full claim `[0, 1]` is false, see `C85_unit_interval_refuted`. -/
theorem C85_range_partial (k : Kind 2) (g : Geo ℝ 2) (hr : 0 < g.r) (exp : Multiset (Pt ℝ 2) → Bool) (ops : List (GridOp ℝ 2))
    (st : St k.backend (Multiset (Pt ℝ 2))) (h : gridRun g k.dyn exp ops (k.init _) = some st)
    (dens : Multiset (Pt ℝ 2) → Pt ℝ 2 → ℝ) (hd : ∀ s q, 0 ≤ dens s q ∧ dens s q ≤ 1) (s : ℝ) (q : Pt ℝ 2) (j : Jet2) (hj : interpJet g k.dyn dens st s q = some j) :
    -(9 / 32) ≤ j.value ∧ j.value ≤ 41 / 32 := by
  exact interpJet_range g k.dyn dens st s q j (fun p x hx => C24_sample_in_unit_interval k g hr exp ops st h dens hd p x hx) hj

/-! ### the interpolated cost is not the cost -/

/-- a static map of one cell, three points in its first quarter, sampling resolution 1 -/
noncomputable def spikeGeo : Geo ℝ 2 := { r := 1, toMap := id, normal := fun _ => true }
def spikeKind : Kind 2 := .static ![1, 1] ![0, 0]
noncomputable def spikePoints : List (Pt ℝ 2) := [![1/10, 1/10], ![1/5, 1/10], ![1/10, 1/5]]
noncomputable def spikeOps : List (GridOp ℝ 2) := [.insert id spikePoints]

theorem spike_region (p : Pt ℝ 2) : Spec.Region spikeGeo.r spikeKind p ↔ (0 ≤ p 0 ∧ p 0 < 1 / 2) ∧ (0 ≤ p 1 ∧ p 1 < 1 / 2) := by
  unfold spikeKind
  show (∀ a : Fin 2, _ ∧ _) ↔ _
  rw [Fin.forall_fin_two]
  simp [spikeGeo]
  norm_num

open scoped Classical in
theorem spike_accepted : Spec.accepted spikeGeo spikeKind spikeOps = (spikePoints : Multiset (Pt ℝ 2)) := by
  unfold spikeOps Spec.accepted Spec.accepted Spec.acceptedPoints
  rw [Multiset.filter_eq_self.2]
  · simp [spikeGeo]
  · intro p hp
    rw [spike_region]
    simp [spikeGeo, spikePoints] at hp
    rcases hp with rfl | rfl | rfl <;> norm_num

theorem spike_tb (p : Pt ℝ 2) (h : (0 ≤ p 0 ∧ p 0 < 1 / 2) ∧ (0 ≤ p 1 ∧ p 1 < 1 / 2)) : toBundleIndex spikeGeo.r p = ![0, 0] := by
  refine (C01_bundle_contains_point (by norm_num [spikeGeo]) p _).2 ?_
  intro a
  obtain ⟨⟨h1, h2⟩, h3, h4⟩ := h
  fin_cases a <;> simp [spikeGeo] <;> constructor <;> linarith

open scoped Classical in
/-- what the spike map's samples are -/
theorem spike_samples (exp : Multiset (Pt ℝ 2) → Bool) (st : St spikeKind.backend (Multiset (Pt ℝ 2))) (h : gridRun spikeGeo spikeKind.dyn exp spikeOps (spikeKind.init _) = some st)
    (dens : Multiset (Pt ℝ 2) → Pt ℝ 2 → ℝ) : st.sampleNNAt spikeGeo false dens ![0, 0] = some (dens spikePoints ![0, 0]) ∧
      ∀ x y : ℝ, 1 ≤ x → st.sampleNNAt spikeGeo false dens ![x, y] = some 0 := by
  have hr : 0 < spikeGeo.r := by norm_num [spikeGeo]
  refine ⟨?_, ?_⟩
  · obtain ⟨x, hx⟩ := (C24_static_total ![1, 1] ![0, 0] spikeGeo hr exp spikeOps st h dens ![0, 0]).1
    have hz : (spikeGeo.toMap ![0, 0]) = (![0, 0] : Pt ℝ 2) := rfl
    have hreg : (0 ≤ (![0, 0] : Pt ℝ 2) 0 ∧ (![0, 0] : Pt ℝ 2) 0 < 1 / 2) ∧ (0 ≤ (![0, 0] : Pt ℝ 2) 1 ∧ (![0, 0] : Pt ℝ 2) 1 < 1 / 2) := by norm_num
    have hb : Spec.InBundle spikeGeo.r ![0, 0] (spikeGeo.toMap ![0, 0]) := (C01_bundle_contains_point hr _ _).1 (by rw [hz]; exact spike_tb _ hreg)
    have hall : (![0, 0] : Idx 2) ∈ st.bundleIndices := by
      obtain ⟨hI, _, _, h4⟩ := gridRun_spec spikeKind.lawful spikeGeo spikeKind.dyn exp spikeOps _ st spikeKind.init_rinv h
      have hp : (![1/10, 1/10] : Pt ℝ 2) ∈ Spec.accepted spikeGeo spikeKind spikeOps := by rw [spike_accepted]; simp [spikePoints]
      rw [← accOps_eq (Multiset (Pt ℝ 2)) spikeGeo hr, Multiset.mem_coe] at hp
      have h5 := h4 _ hp
      rw [spike_tb _ (by norm_num)] at h5
      exact (mem_bundleIndices spikeKind.lawful st hI.inv _).2 ((mem_allocated_iff st _).1 h5)
    have hmean := (C24_sample_is_mean spikeKind spikeGeo hr exp spikeOps st h dens ![0, 0] ![0, 0] hb x hx).1 ⟨(spike_region _).2 hreg, hall⟩
    have hcell : ∀ c, cellMates spikeGeo.r (Spec.accepted spikeGeo spikeKind spikeOps) c (spikeGeo.toMap ![0, 0]) = (spikePoints : Multiset (Pt ℝ 2)) := by
      intro c
      unfold cellMates
      rw [spike_accepted, Multiset.filter_eq_self]
      intro p hp
      rw [hz]
      have hp' : toBundleIndex spikeGeo.r p = ![0, 0] := spike_tb p (by
        simp [spikePoints] at hp
        rcases hp with rfl | rfl | rfl <;> norm_num)
      have e0 : toBundleIndex spikeGeo.r (![0, 0] : Pt ℝ 2) = ![0, 0] := spike_tb _ hreg
      exact ⟨_, (C01_point_in_selected_cell hr _ c _).1 rfl, (C01_point_in_selected_cell hr _ c _).1 (by rw [hp', e0])⟩
    refine (show _ = some x from hx).trans ?_
    rw [hmean]
    simp only [hcell]
    rw [hz, Finset.sum_const, Finset.card_range]
    congr 1
    simp
    ring
  · intro x y hxy
    refine (C24_static_total ![1, 1] ![0, 0] spikeGeo hr exp spikeOps st h dens ![x, y]).2 ?_
    have := (spike_region (spikeGeo.toMap ![x, y]))
    intro hh
    have h2 := (this.1 hh).1.2
    have : x < 1 / 2 := h2
    linarith

/-- the interpolated cost of the spike map between the second and third grid point -/
theorem spike_cost (exp : Multiset (Pt ℝ 2) → Bool) (st : St spikeKind.backend (Multiset (Pt ℝ 2))) (h : gridRun spikeGeo spikeKind.dyn exp spikeOps (spikeKind.init _) = some st)
    (dens : Multiset (Pt ℝ 2) → Pt ℝ 2 → ℝ) : ∃ j, interpJet spikeGeo false dens st 1 ![3/2, 0] = some j ∧ j.value = 1 + dens spikePoints ![0, 0] / 16 := by
  obtain ⟨j, hj⟩ := C85_static_defined ![1, 1] ![0, 0] spikeGeo (by norm_num [spikeGeo]) exp spikeOps st h dens 1 ![3/2, 0]
  refine ⟨j, hj, ?_⟩
  obtain ⟨s0, s1⟩ := spike_samples exp st h dens
  have f0 : ⌊(3 / 2 : ℝ)⌋ = 1 := by norm_num
  have hv0 : gridValue spikeGeo false dens st 1 0 0 = some (1 - dens spikePoints ![0, 0]) := by
    unfold gridValue
    simp only [Int.cast_zero, zero_mul]
    rw [s0]; rfl
  have hv : ∀ n : Int, 1 ≤ n → gridValue spikeGeo false dens st 1 n 0 = some 1 := by
    intro n hn
    unfold gridValue
    rw [s1 _ _ (by rw [mul_one]; exact_mod_cast hn)]
    simp
  rw [interpJet_eq _ _ _ _ _ _ j hj]
  dsimp only
  have hin : ∀ w : Int → ℝ, spline w ((![3/2, 0] : Pt ℝ 2) 1 / 1) = w 0 := by
    intro w
    show spline w (0 / 1) = w 0
    unfold spline piece
    simp [hermite_zero]
  simp only [hin]
  show spline (fun i => (gridValue spikeGeo false dens st 1 i 0).getD 0) (3 / 2 / 1) = _
  rw [div_one]
  unfold spline piece
  rw [f0]
  dsimp only
  rw [show (1 : Int) - 1 = 0 from rfl, hv0, hv 1 (by norm_num), hv (1 + 1) (by norm_num), hv (1 + 2) (by norm_num)]
  simp only [Option.getD_some]
  unfold hermite
  push_cast
  ring

/-- **C85** (refutation of the range). On a map with three points in one cell, with any density that is positive at the corner of that cell, the interpolated cost exceeds 1 at a point outside of the map. -/
theorem C85_unit_interval_refuted : ∃ (k : Kind 2) (g : Geo ℝ 2) (ops : List (GridOp ℝ 2)) (s : ℝ) (q : Pt ℝ 2) (S : Multiset (Pt ℝ 2)) (p : Pt ℝ 2), 0 < g.r ∧ 0 < s ∧ S.card = 3 ∧
    ∀ (exp : Multiset (Pt ℝ 2) → Bool), ∃ st, gridRun g k.dyn exp ops (k.init _) = some st ∧
      ∀ dens : Multiset (Pt ℝ 2) → Pt ℝ 2 → ℝ, (∀ s q, 0 ≤ dens s q ∧ dens s q ≤ 1) → 0 < dens S p → ∃ j, interpJet g k.dyn dens st s q = some j ∧ 1 < j.value := by
  refine ⟨spikeKind, spikeGeo, spikeOps, 1, ![3/2, 0], spikePoints, ![0, 0], by norm_num [spikeGeo], one_pos, rfl, fun exp => ?_⟩
  obtain ⟨st, h⟩ : ∃ st, gridRun spikeGeo spikeKind.dyn exp spikeOps (spikeKind.init (Multiset (Pt ℝ 2))) = some st :=
    Option.isSome_iff_exists.1 (C16_static_in_bounds ![1, 1] ![0, 0] spikeGeo exp spikeOps)
  refine ⟨st, h, fun dens _ hp => ?_⟩
  obtain ⟨j, hj, hv⟩ := spike_cost exp st h dens
  exact ⟨j, hj, by rw [hv]; linarith⟩

/-- **C85** (refutation of the agreement). With `Flag::INTERPOLATION` the cost of a point depends on whether derivatives are requested: there is a map and a point at which the two evaluations differ, for every density that is positive
at one corner of a cell. -/
theorem C85_same_cost_refuted : ∃ (k : Kind 2) (g : Geo ℝ 2) (ops : List (GridOp ℝ 2)) (s : ℝ) (q : Pt ℝ 2) (S : Multiset (Pt ℝ 2)) (p : Pt ℝ 2), 0 < g.r ∧ 0 < s ∧ S.card = 3 ∧
    ∀ (exp : Multiset (Pt ℝ 2) → Bool), ∃ st, gridRun g k.dyn exp ops (k.init _) = some st ∧
      ∀ dens : Multiset (Pt ℝ 2) → Pt ℝ 2 → ℝ, (∀ s q, 0 ≤ dens s q ∧ dens s q ≤ 1) → 0 < dens S p →
        ∃ j x, interpJet g k.dyn dens st s q = some j ∧ interpDouble g k.dyn dens st q = some x ∧ x < j.value := by
  refine ⟨spikeKind, spikeGeo, spikeOps, 1, ![3/2, 0], spikePoints, ![0, 0], by norm_num [spikeGeo], one_pos, rfl, fun exp => ?_⟩
  obtain ⟨st, h⟩ : ∃ st, gridRun spikeGeo spikeKind.dyn exp spikeOps (spikeKind.init (Multiset (Pt ℝ 2))) = some st :=
    Option.isSome_iff_exists.1 (C16_static_in_bounds ![1, 1] ![0, 0] spikeGeo exp spikeOps)
  refine ⟨st, h, fun dens _ hp => ?_⟩
  obtain ⟨j, hj, hv⟩ := spike_cost exp st h dens
  refine ⟨j, 1, hj, ?_, by rw [hv]; linarith⟩
  unfold interpDouble
  show (st.sampleNNAt spikeGeo false dens ![3/2, 0]).map _ = _
  refine (congrArg (Option.map fun s : ℝ => 1 - s) ((spike_samples exp st h dens).2 (3/2) 0 (by norm_num))).trans ?_
  simp

/-! ### occupancy maps -/

/-- **C85** (occupancy maps). With an inverse model, the interpolated cost of an occupancy map is that of the map whose densities are multiplied by the occupancies: it agrees with the cost without derivatives at the multiples of the sampling
resolution, and is continuously differentiable around every point in whose neighbourhood it is defined. Without an inverse model both evaluations throw. -/
theorem C85_occupancy_partial {B : Backend 2} {W E M : Type} (g : Geo ℝ 2) (dyn : Bool) (dens : Multiset E → Pt ℝ 2 → ℝ) (occ : M → Occ W E → ℝ) (st : St B (Occ W E)) (s : ℝ) (hs : s ≠ 0) :
    (∀ q, (∃ e, occInterpDouble g dyn dens occ none st q = .error e) ∧ ∃ e, occInterpJet g dyn dens occ none st s q = .error e) ∧
    ∀ m : M, ∃ J : Pt ℝ 2 → Option Jet2, (∀ q, occInterpJet g dyn dens occ (some m) st s q = .ok (J q)) ∧
      (∀ (a b : Int) (j : Jet2), J ![a * s, b * s] = some j → occInterpDouble g dyn dens occ (some m) st ![a * s, b * s] = .ok (some j.value)) ∧
      (∀ q, (∀ᶠ p in 𝓝 q, (J p).isSome = true) → ∃ j, J q = some j ∧
        HasDerivAt (fun t => ((J ![t, q 1]).map Jet2.value).getD 0) j.dRow (q 0) ∧ HasDerivAt (fun t => ((J ![q 0, t]).map Jet2.value).getD 0) j.dCol (q 1) ∧
        ContinuousAt (fun p => ((J p).map Jet2.value).getD 0) q ∧ ContinuousAt (fun p => ((J p).map Jet2.dRow).getD 0) q ∧ ContinuousAt (fun p => ((J p).map Jet2.dCol).getD 0) q) := by
  refine ⟨fun q => ⟨⟨_, rfl⟩, ⟨_, rfl⟩⟩, fun m => ⟨fun q => interpJet g dyn (fun o x => occValue dens (occ m) x o) st s q, fun q => rfl, fun a b j h => ?_, fun q h => ?_⟩⟩
  · have := (C85_grid_points_partial g dyn _ st s hs a b j h).1
    unfold interpDouble at this
    unfold occInterpDouble
    exact congrArg Except.ok this
  · exact C85_differentiable g dyn _ st s hs q h

/-- **C85** (range, occupancy maps): with densities and occupancies in `[0, 1]`, the interpolated cost of every reachable occupancy map of either class stays in `[-9/32, 41/32]`. -/
theorem C85_occupancy_range_partial {W E M : Type} [AddCommMonoid W] (fl : Flavour ℝ 2 W E) (k : Kind 2) (g : Geo ℝ 2) (hr : 0 < g.r)
    (defRay : Pt ℝ 2 → Pt ℝ 2 → List (Idx 2)) (exp : Occ W E → Bool) (st : St k.backend (Occ W E)) (hst : OccReachable fl k g defRay exp st)
    (dens : Multiset E → Pt ℝ 2 → ℝ) (hd : ∀ s q, 0 ≤ dens s q ∧ dens s q ≤ 1) (occ : M → Occ W E → ℝ) (m : M) (ho : ∀ o, 0 ≤ occ m o ∧ occ m o ≤ 1)
    (s : ℝ) (q : Pt ℝ 2) (j : Jet2) (hj : occInterpJet g k.dyn dens occ (some m) st s q = .ok (some j)) : -(9 / 32) ≤ j.value ∧ j.value ≤ 41 / 32 :=
  interpJet_range g k.dyn (fun o x => occValue dens (occ m) x o) st s q j
    (fun p x hx => C24_occupancy_sample_in_unit_interval fl k g hr defRay exp st hst dens hd occ m ho p x (congrArg Except.ok hx)) (Except.ok.inj hj)

/-- Non-vacuity: on the spike map, with the density 1 for non-empty cells, the hypotheses of the theorems hold: the history runs, the interpolated cost is defined around every point, densities lie in `[0, 1]` and the density of the
three points is positive at the corner. -/
example : ∃ st, gridRun spikeGeo spikeKind.dyn (fun _ => true) spikeOps (spikeKind.init _) = some st ∧
    (∀ q, ∀ᶠ p in 𝓝 q, (interpJet spikeGeo false (fun S _ => if Multiset.card S = 0 then 0 else 1) st (1 / 4) p).isSome = true) ∧
    (∀ (S : Multiset (Pt ℝ 2)) (_ : Pt ℝ 2), (0 : ℝ) ≤ (if Multiset.card S = 0 then 0 else 1) ∧ (if Multiset.card S = 0 then 0 else 1) ≤ (1 : ℝ)) ∧
    (0 : ℝ) < (if Multiset.card (spikePoints : Multiset (Pt ℝ 2)) = 0 then 0 else 1) := by
  obtain ⟨st, h⟩ : ∃ st, gridRun spikeGeo spikeKind.dyn (fun _ => true) spikeOps (spikeKind.init (Multiset (Pt ℝ 2))) = some st :=
    Option.isSome_iff_exists.1 (C16_static_in_bounds ![1, 1] ![0, 0] spikeGeo (fun _ => true) spikeOps)
  refine ⟨st, h, fun q => Eventually.of_forall fun p => ?_, ?_, ?_⟩
  · exact Option.isSome_iff_exists.2 (C85_static_defined ![1, 1] ![0, 0] spikeGeo (by norm_num [spikeGeo]) _ spikeOps st h _ _ p)
  · intro S _
    split <;> norm_num
  · simp [spikePoints]

/-- Non-vacuity of the dynamic theorem: the empty dynamic map around the origin. -/
example : ∃ j, interpJet spikeGeo true (fun _ _ => 1) ((Kind.dynamic (d := 2) 0 0).init (Multiset (Pt ℝ 2))) 1 ![0, 0] = some j := by
  refine C85_dynamic_defined 0 0 spikeGeo (fun _ => true) [] _ rfl _ 1 ![0, 0] fun n m h1 h2 h3 h4 => ?_
  have f0 : ⌊(![0, 0] : Pt ℝ 2) 0 / 1⌋ = 0 := by simp
  have f1 : ⌊(![0, 0] : Pt ℝ 2) 1 / 1⌋ = 0 := by simp
  rw [f0] at h1 h2
  rw [f1] at h3 h4
  have e : ∀ z : Int, ⌊(z : ℝ) * 1 * bundleResolutionInv (1 : ℝ)⌋ = 2 * z := by
    intro z
    rw [bundleResolutionInv_eq']
    rw [show (z : ℝ) * 1 * (2 / 1) = ((2 * z : Int) : ℝ) by push_cast; ring, Int.floor_intCast]
  intro a
  have : toBundleIndex spikeGeo.r (spikeGeo.toMap ![(n : ℝ) * 1, (m : ℝ) * 1]) a = if a = 0 then 2 * n else 2 * m := by
    fin_cases a
    · exact e n
    · exact e m
  rw [this]
  split <;> omega

end Ndt
