import Verif.Props.Accessors
import Verif.Props.AnyCopy

/-! Property theorem C73 for occupancy maps of both classes; `Props/Accessors.lean` has it for NDT maps. -/

namespace Ndt
open St

section
variable {K : Type} [Field K] [LinearOrder K] [IsStrictOrderedRing K] [FloorRing K] {d : Nat} {W E : Type} [AddCommMonoid W]

/-- **C73** (occupancy maps). For every reachable map and every 2D pose with translation `q`; `p` is the point `(q, 0)` of the map. `validate` returns true iff inserting (the finite point) `p`, with whatever line iterator, changes
some distribution; it does so iff `p` lies in the region of the map. If it returns false, looking up `p` gives no bundle, an insertion of `p` leaves the map as it is, and the map samples to 0 at `p`. -/
theorem C73_occupancy_validate (fl : Flavour K d W E) (k : Kind d) (g : Geo K d) (hr : 0 < g.r) (defRay : Pt K d → Pt K d → List (Idx d)) (exp : Occ W E → Bool)
    (st : St k.backend (Occ W E)) (hst : OccReachable fl k g defRay exp st) (q : Pt K 2) (p : Pt K d) (hp : ∀ a : Fin d, p a = if a.1 = 0 then q 0 else if a.1 = 1 then q 1 else 0)
    (hn : g.normal p = true) (s : Scan K d W) (hpose : s.pose = id) (hcloud : s.cloud = [p]) :
    (validate g k.dyn q st = true ↔ Spec.Region g.r k (g.toMap p)) ∧
    (∀ st', occInsert fl g k.dyn s st = some st' →
      (validate g k.dyn q st = true ↔ ∃ c i, c < 2 ^ d ∧ (st'.content c i).getD Occ.new ≠ (st.content c i).getD Occ.new)) ∧
    (validate g k.dyn q st = false → getAtPoint g k.dyn p st = some none ∧ occInsert fl g k.dyn s st = some st ∧
      ∀ (M : Type) (dens : Multiset E → Pt K d → K) (occ : M → Occ W E → K) (m : M),
        occSampleNNAt g k.dyn dens occ p (some m) st = .ok (some 0) ∧ occSampleBilinearAt g k.dyn dens occ p (some m) st = .ok (some 0)) := by
  have hR := hst.map.spec
  have hval : validate g k.dyn q st = st.valid k.dyn (toBundleIndex g.r (g.toMap p)) := by
    unfold validate; rw [toPoint_eq q p hp]
  have hreg : validate g k.dyn q st = true ↔ Spec.Region g.r k (g.toMap p) := by
    rw [hval, valid_abs, hR.2.valid]
    exact valid_iff_region _ g.r hr k (g.toMap p)
  have hno : validate g k.dyn q st = false → occInsert fl g k.dyn s st = some st := by
    intro hf
    rw [hval] at hf
    have hcol : occCollect fl g (st.valid k.dyn) s.pose s.cloud = [] := by
      unfold occCollect collect
      rw [hpose, hcloud, List.filter_cons, if_pos hn]
      simp only [List.filter_nil, List.foldl_cons, List.foldl_nil, id_eq, hn, if_true, hf, Bool.false_eq_true, if_false, List.map_nil]
    have ho : s.order [] = [] := List.Perm.eq_nil (s.order_perm [])
    unfold occInsert
    simp only [hcol, occHits, eraseKeys, List.filter_nil, ite_self, ho]
    rfl
  refine ⟨hreg, ?_, fun hf => ⟨?_, hno hf, fun M dens occ m => ?_⟩⟩
  · intro st' hi
    constructor
    · intro hv
      rw [hval] at hv
      refine ⟨0, generateIndex (toBundleIndex g.r (g.toMap p)) 0, Nat.two_pow_pos d, fun e => ?_⟩
      have hi' := hi
      rw [occInsert_eq k.lawful fl g k.dyn s st hR.1] at hi'
      have := (occAdd_spec k.lawful k.dyn _ st st' hR.1 hi').2.2.1 0 (Nat.two_pow_pos d) (generateIndex (toBundleIndex g.r (g.toMap p)) 0)
      have e1 : st'.abs.val 0 (generateIndex (toBundleIndex g.r (g.toMap p)) 0) = st.abs.val 0 (generateIndex (toBundleIndex g.r (g.toMap p)) 0) := e
      rw [e1] at this
      have h2 := congrArg Occ.samples this
      rw [Occ.samples_add, insertEffects_samples fl g (st.valid k.dyn) s (fun b => decide (generateIndex b 0 = generateIndex (toBundleIndex g.r (g.toMap p)) 0))] at h2
      have h3 := congrArg Multiset.card h2
      rw [Multiset.card_add, Multiset.card_map, Multiset.coe_card, hpose, hcloud, List.filter_cons, if_pos hn] at h3
      unfold accList at h3
      simp only [List.filter_nil, List.map_cons, List.map_nil, id_eq, List.filter_cons, hn, if_true, hv, decide_true, List.length_cons, List.length_nil] at h3
      omega
    · rintro ⟨c, i, _, hne⟩
      by_contra hf
      rw [Bool.not_eq_true] at hf
      rw [hno hf] at hi
      cases hi
      exact hne rfl
  · rw [hval] at hf
    unfold getAtPoint getBundle
    rw [hf]; rfl
  · rw [hval] at hf
    constructor
    · unfold occSampleNNAt occSampleNN sampleWith; rw [hf]; rfl
    · unfold occSampleBilinearAt occSampleBilinear sampleWith; rw [hf]; rfl

end

/-- Non-vacuity: the static occupancy map `occLife`; a pose at 5/4 is valid, one at 7 is not, and the scan of the hit at 5/4 has the required form. -/
example : OccReachable (occFlavour ℚ 1) (.static ![2] ![0]) oneGeo (fun _ _ => []) (fun _ => true) (occLife.get occLife_runs) ∧ copyScan.pose = id ∧ copyScan.cloud = [![5/4]] ∧
    validate oneGeo false ![5/4, 0] (occLife.get occLife_runs) = true ∧ validate oneGeo false ![7, 0] (occLife.get occLife_runs) = false :=
  ⟨⟨[.insert copyScan], (Option.some_get occLife_runs).symm⟩, rfl, rfl, by decide +kernel, by decide +kernel⟩

end Ndt
