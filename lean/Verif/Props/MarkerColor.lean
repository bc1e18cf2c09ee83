import Verif.Model.MarkerColor
import Verif.Props.Export
import Verif.Props.AnyMap
import Verif.Props.MarkerShape

/-!
Property theorems C111: the colours of the exported markers.
-/

namespace Ndt
open St Spec

section
variable {K : Type} [Field K] [LinearOrder K] [IsStrictOrderedRing K] [FloorRing K] {d : Nat} {Q C V : Type}

omit [FloorRing K] in
/-- bounds of the mean -/
theorem meanOf_bounds (m : Multiset (Pt K d)) (hm : m ≠ 0) (lo hi : Pt K d) (h : ∀ p ∈ m, ∀ a, lo a ≤ p a ∧ p a ≤ hi a) (a : Fin d) : lo a ≤ meanOf m a ∧ meanOf m a ≤ hi a := by
  have hc : (0 : K) < m.card := Nat.cast_pos.2 (Multiset.card_pos.2 hm)
  unfold meanOf
  have h1 : (m.map fun _ => lo a).sum ≤ (m.map fun p => p a).sum := Multiset.sum_map_le_sum_map _ _ fun p hp => (h p hp a).1
  have h2 : (m.map fun p => p a).sum ≤ (m.map fun _ => hi a).sum := Multiset.sum_map_le_sum_map _ _ fun p hp => (h p hp a).2
  rw [Multiset.map_const', Multiset.sum_replicate, nsmul_eq_mul] at h1 h2
  rw [le_div_iff₀ hc, div_le_iff₀ hc]
  exact ⟨by linarith, by linarith⟩

theorem region_in_bounds {D : Type} [Inhabited D] (size : Fin d → Nat) (lo : Idx d) (exp : D → Bool) (st : St (arrayBackend d) D) (hR : MapReachable (.static size lo) exp st) (r : K) (hr : 0 < r) (p : Pt K d)
    (hp : Region r (.static size lo) p) (a : Fin d) : st.getMin r a ≤ p a ∧ p a < st.getMax r a := by
  obtain ⟨e1, e2⟩ := hR.spec.2.static rfl
  have e1' : st.minB = lo := e1
  have e2' : st.maxB = fun a => lo a + (size a * 2 : Nat) - 1 := e2
  have h := hp a
  unfold getMin getMax bundleResolution
  rw [e1', e2']
  push_cast
  exact ⟨by linarith [h.1], by linarith [h.2]⟩

/-- every accepted point lies between the corners of the map, static or dynamic -/
theorem accepted_in_bounds (k : Kind d) (g : Geo K d) (hr : 0 < g.r) (exp : Multiset (Pt K d) → Bool) (ops : List (GridOp K d)) (st : St k.backend (Multiset (Pt K d)))
    (h : gridRun g k.dyn exp ops (k.init _) = some st) (p : Pt K d) (hp : p ∈ accepted g k ops) (a : Fin d) : st.getMin g.r a ≤ p a ∧ p a < st.getMax g.r a := by
  cases k with
  | dynamic gb gb' => exact C13_points_in_bounds gb gb' g hr exp ops st h p hp a
  | static size lo =>
    have hR := grid_reachable g (.static size lo) exp ops _ st .init h
    refine region_in_bounds size lo exp st hR g.r hr p ?_ a
    clear h hR
    classical
    induction ops with
    | nil => exact absurd hp (Multiset.notMem_zero p)
    | cons op l ih =>
      cases op with
      | core _ => exact ih hp
      | insert pose cloud =>
        rcases Multiset.mem_add.1 hp with hp | hp
        · exact (Multiset.mem_filter.1 hp).2
        · exact ih hp

/-- every recorded hit lies between the corners of the map, static or dynamic -/
theorem hits_in_bounds (k : Kind d) (g : Geo K d) (hr : 0 < g.r) (defRay : Pt K d → Pt K d → List (Idx d)) (exp : Occ Nat (Pt K d) → Bool) (ops : List (OccMapOp K d Nat (Pt K d)))
    (st : St k.backend (Occ Nat (Pt K d))) (h : occRun (occFlavour K d) g k.dyn defRay exp ops (k.init _) = some st) (c : Nat) (hc : c < 2 ^ d) (i : Idx d) (p : Pt K d)
    (hp : p ∈ ((st.content c i).getD Occ.new).samples) (a : Fin d) : st.getMin g.r a ≤ p a ∧ p a < st.getMax g.r a := by
  cases k with
  | dynamic gb gb' => exact C13_hits_in_bounds gb gb' g hr defRay exp ops st h c hc i p hp a
  | static size lo =>
    have hR := occ_reachable (occFlavour K d) g (.static size lo) defRay exp ops _ st .init h
    refine region_in_bounds size lo exp st hR g.r hr p ?_ a
    obtain ⟨outs, _, _, h3⟩ := history_exact (occFlavour K d) occFlavour_mean (.static size lo) g hr defRay exp ops st h
    rw [(h3 c hc i).1] at hp
    obtain ⟨q, hq, rfl⟩ := Multiset.mem_map.1 hp
    obtain ⟨m, hm, hqm⟩ := (mem_list_sum q _).1 hq
    obtain ⟨e, he, rfl⟩ := List.mem_map.1 hm
    obtain ⟨op, o⟩ := e
    cases op with
    | core op => exact absurd hqm (Multiset.notMem_zero q)
    | insert s =>
      simp only [Spec.hitsBy, Spec.hitsOn, Multiset.mem_filter, Spec.hits, Spec.acceptedPoints] at hqm
      exact hqm.1.2
    | insertVisible s occ vm =>
      simp only [Spec.hitsBy, Spec.hitsOn, Multiset.mem_filter, Spec.hits, Spec.acceptedPoints] at hqm
      exact hqm.1.2

omit [FloorRing K] in
/-- heights between those of the corners -/
theorem height_between (w : Fin 3 → K) (hw : ∀ a, 0 ≤ w a) (t : K) (lo hi p : Pt K 3) (h : ∀ a, lo a ≤ p a ∧ p a ≤ hi a) :
    w 0 * lo 0 + w 1 * lo 1 + w 2 * lo 2 + t ≤ w 0 * p 0 + w 1 * p 1 + w 2 * p 2 + t ∧ w 0 * p 0 + w 1 * p 1 + w 2 * p 2 + t ≤ w 0 * hi 0 + w 1 * hi 1 + w 2 * hi 2 + t := by
  have l := fun a => mul_le_mul_of_nonneg_left (h a).1 (hw a)
  have u := fun a => mul_le_mul_of_nonneg_left (h a).2 (hw a)
  exact ⟨by linarith [l 0, l 1, l 2], by linarith [u 0, u 1, u 2]⟩

/-- **C111** (NDT maps). If the pose of the map is level, more generally if no axis of the map points downwards, then all exported markers have heights between the two limits of their colour scale, and every marker has the colour of its height on
this scale. -/
theorem C111_ndt_partial (k : Kind 3) (g : Geo K 3) (hr : 0 < g.r) (exp : Multiset (Pt K 3) → Bool) (ops : List (GridOp K 3)) (st : St k.backend (Multiset (Pt K 3)))
    (h : gridRun g k.dyn exp ops (k.init _) = some st) (v : Viz K 3 Q C V) (hv : v.eigen 0 = none) (w : Fin 3 → K) (t : K) (hw : ∀ a, 0 ≤ w a)
    (ho : ∀ p, v.origin p 2 = w 0 * p 0 + w 1 * p 1 + w 2 * p 2 + t) (interp : K → K → K → C) (e : K) (marker0 : Marker K Q C) (h0 : marker0.id = 0) (dst : List (Marker K Q C)) :
    let lo := v.origin (st.getMin g.r) 2
    let hi := v.origin (st.getMax g.r) 2
    ∃ ms, markersNdt (viz3 e) (heightViz v interp g.r st) marker0 dst st = dst ++ { marker0 with action := .deleteAll } :: ms ∧
      ∀ m ∈ ms, lo ≤ m.position 2 ∧ m.position 2 ≤ hi ∧ m.color = interp (m.position 2) lo hi := by
  classical
  intro lo hi
  obtain ⟨keys, ms, hL, h1, h2, h3⟩ := C71_markers_ndt k g exp ops st h (viz3 e) (heightViz v interp g.r st) marker0 h0 dst
  refine ⟨ms, h1, fun m hm => ?_⟩
  obtain ⟨i, hi', rfl⟩ := List.mem_iff_getElem.1 hm
  have hk : i < keys.length := h2 ▸ hi'
  have hmem := List.getElem_mem hk
  obtain ⟨hc, s, hs, hne⟩ := (hL.2 keys[i].1 keys[i].2).1 hmem
  obtain ⟨s', hs', hm'⟩ := h3 i keys[i].1 keys[i].2 (List.getElem?_eq_getElem hk)
  obtain rfl : s = s' := Option.some.inj (hs.symm.trans hs')
  rw [List.getElem?_eq_getElem hi'] at hm'
  obtain ⟨x, hx, hxm⟩ := Option.map_eq_some_iff.1 hm'.symm
  have hs0 : s ≠ 0 := fun e0 => hne (by rw [e0]; exact hv)
  have hb : ∀ p ∈ s, ∀ a, st.getMin g.r a ≤ p a ∧ p a ≤ st.getMax g.r a := by
    intro p hp a
    have hin : p ∈ accepted g k ops := by
      have := C10_contents_exact k g hr exp ops st h _ hc keys[i].2
      rw [hs] at this
      have hp' : p ∈ (some s : Option (Multiset (Pt K 3))).getD 0 := hp
      rw [this] at hp'
      exact (Multiset.mem_filter.1 hp').1
    have := accepted_in_bounds k g hr exp ops st h p hin a
    exact ⟨this.1, this.2.le⟩
  have hmean := meanOf_bounds s hs0 _ _ hb
  have hbt := height_between w hw t _ _ _ hmean
  rw [← ho, ← ho, ← ho] at hbt
  rw [← hxm]
  exact ⟨hbt.1, hbt.2, rfl⟩

/-- **C111** (occupancy maps). As `C111_ndt_partial`. -/
theorem C111_occupancy_partial (k : Kind 3) (g : Geo K 3) (hr : 0 < g.r) (defRay : Pt K 3 → Pt K 3 → List (Idx 3)) (exp : Occ Nat (Pt K 3) → Bool)
    (ops : List (OccMapOp K 3 Nat (Pt K 3))) (st : St k.backend (Occ Nat (Pt K 3))) (h : occRun (occFlavour K 3) g k.dyn defRay exp ops (k.init _) = some st)
    (v : Viz K 3 Q C V) (hv : v.eigen 0 = none) (w : Fin 3 → K) (t : K) (hw : ∀ a, 0 ≤ w a)
    (ho : ∀ p, v.origin p 2 = w 0 * p 0 + w 1 * p 1 + w 2 * p 2 + t) (interp : K → K → K → C) (occ : Occ Nat (Pt K 3) → K) (threshold : K) (e : K) (marker0 : Marker K Q C) (h0 : marker0.id = 0)
    (dst : List (Marker K Q C)) :
    let lo := v.origin (st.getMin g.r) 2
    let hi := v.origin (st.getMax g.r) 2
    ∃ ms, markersOcc (viz3 e) (heightViz v interp g.r st) occ threshold marker0 dst st = dst ++ { marker0 with action := .deleteAll } :: ms ∧
      ∀ m ∈ ms, lo ≤ m.position 2 ∧ m.position 2 ≤ hi ∧ m.color = interp (m.position 2) lo hi ∧ threshold ≤ m.alpha := by
  classical
  intro lo hi
  obtain ⟨keys, ms, hL, h1, h2, h3⟩ := C71_markers_occupancy k g defRay exp ops st h (viz3 e) (heightViz v interp g.r st) occ threshold marker0 h0 dst
  refine ⟨ms, h1, fun m hm => ?_⟩
  obtain ⟨i, hi', rfl⟩ := List.mem_iff_getElem.1 hm
  have hk : i < keys.length := h2 ▸ hi'
  have hmem := List.getElem_mem hk
  obtain ⟨hc, o, hs, _, hth, hne⟩ := (hL.2 keys[i].1 keys[i].2).1 hmem
  obtain ⟨o', hs', hm'⟩ := h3 i keys[i].1 keys[i].2 (List.getElem?_eq_getElem hk)
  obtain rfl : o = o' := Option.some.inj (hs.symm.trans hs')
  rw [List.getElem?_eq_getElem hi'] at hm'
  obtain ⟨x, hx, hxm⟩ := Option.map_eq_some_iff.1 hm'.symm
  have hs0 : o.samples ≠ 0 := fun e0 => hne (by rw [e0]; exact hv)
  have hb : ∀ p ∈ o.samples, ∀ a, st.getMin g.r a ≤ p a ∧ p a ≤ st.getMax g.r a := by
    intro p hp a
    have := hits_in_bounds k g hr defRay exp ops st h keys[i].1 hc keys[i].2 p (by rw [hs]; exact hp) a
    exact ⟨this.1, this.2.le⟩
  have hmean := meanOf_bounds o.samples hs0 _ _ hb
  have hbt := height_between w hw t _ _ _ hmean
  rw [← ho, ← ho, ← ho] at hbt
  rw [← hxm]
  exact ⟨hbt.1, hbt.2, rfl, hth⟩

end

/-- The rotations about the vertical axis are among the poses of `C111_ndt_partial`. -/
theorem C111_level (t : Pt ℝ 3) (yaw : ℝ) (p : Pt ℝ 3) : Matching.moved3 t (quatOfYaw yaw) p 2 = p 2 + t 2 := by
  unfold Matching.moved3 Matching.Quat.rotate quatOfYaw
  simp

/-! ### Concrete cases -/

/-- a static map of 2 x 2 x 2 cells with one point -/
def tiltOps : List (GridOp ℚ 3) := [.insert id [![1/4, 5/4, 1/4]]]
def tiltMap : St (arrayBackend 3) (Multiset (Pt ℚ 3)) := (gridRun geo3 false (fun s => s.card ≠ 0) tiltOps (kind3.init _)).get (by decide +kernel)

/-- the conversion with a given pose; every distribution with points can be decomposed, and a colour consists of the arguments of `interpolateColor` -/
def tiltViz (origin : Pt ℚ 3 → Pt ℚ 3) : Viz ℚ 3 Unit (ℚ × ℚ × ℚ) Unit := ⟨origin, fun s => if s.card = 0 then none else some (fun _ => .fin 1, ()), id, fun _ => (0, 0, 0), id⟩
def tiltMarkers (origin : Pt ℚ 3 → Pt ℚ 3) : List (Marker ℚ Unit (ℚ × ℚ × ℚ)) :=
  markersNdt (viz3 (1/10000)) (heightViz (tiltViz origin) (fun z lo hi => (z, lo, hi)) 1 tiltMap) ⟨.add, 0, fun _ => 0, (), fun _ => .nan, 0, (0, 0, 0)⟩ [] tiltMap

/-- the rotation about the x axis with sine 3/5 and cosine 4/5 -/
def tilted (p : Pt ℚ 3) : Pt ℚ 3 := ![p 0, 4/5 * p 1 + 3/5 * p 2, 4/5 * p 2 - 3/5 * p 1]

/-- **C111** (refuted for tilted poses). The limits of the colour scale are the heights of two opposite corners of the map, which are not the lowest and the highest one if an axis points downwards: here the limits are 0 and 2/5, but the
markers are at height -11/20. With a larger angle (sine 4/5) the lower limit is above the upper one. -/
theorem C111_tilted_refuted : gridRun geo3 false (fun s => s.card ≠ 0) tiltOps (kind3.init _) = some tiltMap ∧
    (∀ p, (tilted p 0) ^ 2 + (tilted p 1) ^ 2 + (tilted p 2) ^ 2 = (p 0) ^ 2 + (p 1) ^ 2 + (p 2) ^ 2) ∧
    (tiltMarkers tilted).length = 9 ∧ (∀ m ∈ (tiltMarkers tilted).drop 1, m.color = (-11/20, 0, 2/5)) ∧
    heightLimits (fun p : Pt ℚ 3 => ![p 0, 3/5 * p 1 + 4/5 * p 2, 3/5 * p 2 - 4/5 * p 1]) 1 tiltMap = (0, -2/5) := by
  refine ⟨(Option.some_get _).symm, fun p => ?_, by decide +kernel, by decide +kernel, by decide +kernel⟩
  show (p 0) ^ 2 + (4/5 * p 1 + 3/5 * p 2) ^ 2 + (4/5 * p 2 - 3/5 * p 1) ^ 2 = _
  ring

/-- Non-vacuity: the same map with a level pose; distributions without points have no marker, the other ones have heights within the limits 1 and 3. -/
example : gridRun geo3 false (fun s => s.card ≠ 0) tiltOps (kind3.init _) = some tiltMap ∧ (tiltViz (fun p => ![p 0, p 1, p 2 + 1])).eigen 0 = none ∧
    (∀ p, (tiltViz (fun p => ![p 0, p 1, p 2 + 1])).origin p 2 = 0 * p 0 + 0 * p 1 + 1 * p 2 + 1) ∧
    (tiltMarkers (fun p => ![p 0, p 1, p 2 + 1])).length = 9 ∧ ∀ m ∈ (tiltMarkers (fun p => ![p 0, p 1, p 2 + 1])).drop 1, m.color = (5/4, 1, 3) := by
  refine ⟨(Option.some_get _).symm, rfl, fun p => ?_, by decide +kernel, by decide +kernel⟩
  show p 2 + 1 = _
  ring

/-- Non-vacuity for occupancy maps: markers are exported. -/
example : occRun (occFlavour ℚ 3) geo3 false (fun _ _ => []) (fun _ => true) [.insert scan3] (kind3.init _) = some occMap3 ∧
    1 < (markersOcc (viz3 (1/10000)) (heightViz (tiltViz id) (fun z lo hi => (z, lo, hi)) 1 occMap3) (fun _ => 1) (1/2) ⟨.add, 0, fun _ => 0, (), fun _ => .nan, 0, (0, 0, 0)⟩ [] occMap3).length :=
  ⟨(Option.some_get _).symm, by decide +kernel⟩

end Ndt
