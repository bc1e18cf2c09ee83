import Verif.Props.AnyMap
import Verif.Props.Continuity

/-! Bilinear sampling of (weighted) occupancy maps (C25, C26): what `Props/Sampling.lean` and `Props/Continuity.lean` state for NDT maps, for arbitrary contents of the distributions. -/

namespace Ndt
open St Abs Topology Filter

section
variable {K : Type} [Field K] [LinearOrder K] [IsStrictOrderedRing K] [FloorRing K] {d : Nat}

theorem bilinear_any {D : Type} [Inhabited D] (k : Kind d) (g : Geo K d) (hr : 0 < g.r) (exp : D → Bool) (st : St k.backend D) (hst : MapReachable k exp st) (dens : D → Pt K d → K) (p : Pt K d)
    (b : Idx d) (hb : Spec.InBundle g.r b (g.toMap p)) (x : K) (hx : sampleBilinearAt g k.dyn dens p st = some x) :
    (Spec.Region g.r k (g.toMap p) ∧ b ∈ st.bundleIndices → ∃ o : Nat → D, (∀ c, c < 2 ^ d → st.binContent b c = some (o c)) ∧
      x = ∑ c ∈ Finset.range (2 ^ d), Spec.hat g.r c (generateIndex b c) (g.toMap p) * dens (o c) (g.toMap p)) ∧
    (¬ (Spec.Region g.r k (g.toMap p) ∧ b ∈ st.bundleIndices) → x = 0) := by
  have hI := hst.spec.1
  have hbi := toBundleIndex_of_inBundle hr hb
  have hcl : Spec.InClosedBundle g.r b (g.toMap p) := fun i => ⟨(hb i).1, (hb i).2.le⟩
  unfold sampleBilinearAt sampleBilinear at hx
  obtain ⟨h1, h2⟩ := (sampleWith_spec k.lawful k.dyn _ _ _ st hI).1 x hx
  have hval : st.valid k.dyn (toBundleIndex g.r (g.toMap p)) = true ↔ Spec.Region g.r k (g.toMap p) := by
    rw [← valid_iff_region D g.r hr k]
    show st.abs.valid _ _ = true ↔ _
    rw [hst.spec.2.valid]
  have hal : toBundleIndex g.r (g.toMap p) ∈ st.abs.allocated ↔ b ∈ st.bundleIndices := by
    rw [hbi, mem_allocated_iff, mem_bundleIndices k.lawful st hI.inv]
  rw [hval, hal] at h1 h2
  refine ⟨fun hh => ⟨fun c => st.abs.val c (generateIndex b c), ?_, ?_⟩, h2⟩
  · intro c hc
    obtain ⟨bb, hbb⟩ := Option.isSome_iff_exists.1 ((mem_bundleIndices k.lawful st hI.inv b).1 hh.2)
    obtain ⟨a, h3, h4⟩ := hI.inv.complete b bb hbb c hc
    unfold binContent
    rw [hbb]
    simp only [Option.bind_some, h3, Option.map_some]
    refine congrArg some ?_
    show _ = (st.content c (generateIndex b c)).getD default
    unfold St.content; rw [h4]; rfl
  · rw [h1 hh]
    refine Finset.sum_congr rfl fun c hc => ?_
    rw [← C25_weight_is_hat hr b _ hcl, hbi]
    rfl

/-- **C25** (occupancy maps). After any history on a map of either class, bilinear sampling at `p` is the hat-function interpolation of density times occupancy (0 for a bin without hits) over the bins of the bundle of `p`,
and 0 outside of the region or if the bundle is not allocated. -/
theorem C25_occupancy_bilinear_sample {W E M : Type} [AddCommMonoid W] (fl : Flavour K d W E) (k : Kind d) (g : Geo K d) (hr : 0 < g.r)
    (defRay : Pt K d → Pt K d → List (Idx d)) (exp : Occ W E → Bool) (st : St k.backend (Occ W E)) (hst : OccReachable fl k g defRay exp st)
    (dens : Multiset E → Pt K d → K) (occ : M → Occ W E → K) (m : M) (p : Pt K d) (b : Idx d) (hb : Spec.InBundle g.r b (g.toMap p)) (x : K)
    (hx : occSampleBilinearAt g k.dyn dens occ p (some m) st = .ok (some x)) :
    (Spec.Region g.r k (g.toMap p) ∧ b ∈ st.bundleIndices →
      ∃ o : Nat → Occ W E, (∀ c, c < 2 ^ d → st.binContent b c = some (o c)) ∧
        x = ∑ c ∈ Finset.range (2 ^ d), Spec.hat g.r c (generateIndex b c) (g.toMap p) * (o c).data.elim 0 fun s => dens s (g.toMap p) * occ m (o c)) ∧
    (¬ (Spec.Region g.r k (g.toMap p) ∧ b ∈ st.bundleIndices) → x = 0) := by
  obtain ⟨ops, hops⟩ := hst
  have hR := occ_reachable fl g k defRay exp ops _ st .init hops
  have hx' : sampleBilinearAt g k.dyn (fun o q => occValue dens (occ m) q o) p st = some x := by
    have h : (Except.ok (sampleBilinearAt g k.dyn (fun o q => occValue dens (occ m) q o) p st) : Except String (Option K)) = .ok (some x) := hx
    exact Except.ok.inj h
  obtain ⟨h1, h2⟩ := bilinear_any k g hr exp st hR _ p b hb x hx'
  refine ⟨fun hh => ?_, h2⟩
  obtain ⟨o, h3, h4⟩ := h1 hh
  refine ⟨o, h3, h4.trans (Finset.sum_congr rfl fun c _ => congrArg _ ?_)⟩
  unfold occValue
  cases (o c).data <;> rfl

/-- **C25** (occupancy maps, bounds). The sample lies between any bounds of density times occupancy of the bins; in particular in `[0, 1]` for densities and occupancies in `[0, 1]`. -/
theorem C25_occupancy_bilinear_between {W E M : Type} [AddCommMonoid W] (fl : Flavour K d W E) (k : Kind d) (g : Geo K d) (hr : 0 < g.r)
    (defRay : Pt K d → Pt K d → List (Idx d)) (exp : Occ W E → Bool) (st : St k.backend (Occ W E)) (hst : OccReachable fl k g defRay exp st)
    (dens : Multiset E → Pt K d → K) (occ : M → Occ W E → K) (m : M) (p : Pt K d) (b : Idx d) (hb : Spec.InBundle g.r b (g.toMap p)) (x lo hi : K)
    (hx : occSampleBilinearAt g k.dyn dens occ p (some m) st = .ok (some x)) (hreg : Spec.Region g.r k (g.toMap p)) (hal : b ∈ st.bundleIndices)
    (hf : ∀ c, c < 2 ^ d → ∀ o, st.binContent b c = some o → lo ≤ (o.data.elim 0 fun s => dens s (g.toMap p) * occ m o) ∧ (o.data.elim 0 fun s => dens s (g.toMap p) * occ m o) ≤ hi) :
    lo ≤ x ∧ x ≤ hi := by
  have hcl : Spec.InClosedBundle g.r b (g.toMap p) := fun i => ⟨(hb i).1, (hb i).2.le⟩
  obtain ⟨o, h3, h4⟩ := (C25_occupancy_bilinear_sample fl k g hr defRay exp st hst dens occ m p b hb x hx).1 ⟨hreg, hal⟩
  have := C25_between hr b _ hcl (fun c _ => (o c).data.elim 0 fun s => dens s (g.toMap p) * occ m (o c)) lo hi fun c hc => hf c hc (o c) (h3 c hc)
  unfold interpolate at this
  rw [h4]
  simpa only [C25_weight_is_hat hr b _ hcl] using this

end

section
variable {d : Nat}

/-- **C26** (after expansion, all classes): as `C26_expanded_continuous`, for arbitrary contents of the distributions. -/
theorem C26_expanded_any {D : Type} [Inhabited D] (gb : Nat → Nat) (gb' : Nat) (g : Geo ℝ d) (hr : 0 < g.r) (exp : D → Bool) (st st' : St (octreeBackend d) D)
    (hR0 : MapReachable (.dynamic gb gb') exp st) (h' : allocPartials true exp st = some st')
    (b : Idx d) (hb : b ∈ st.bundleIndices) (hv : ∃ c, c < 2 ^ d ∧ ∃ s, st.content c (generateIndex b c) = some s ∧ exp s = true)
    (dens : D → Pt ℝ d → ℝ) (p : Pt ℝ d) (hp : Spec.InClosedBundle g.r b (g.toMap p)) (hT : ContinuousAt g.toMap p) (hdens : ∀ s, ContinuousAt (dens s) (g.toMap p)) :
    (∀ᶠ q in 𝓝 p, (sampleBilinearAt g true dens q st').isSome = true) ∧ ContinuousAt (fun q => (sampleBilinearAt g true dens q st').getD 0) p := by
  have hR : MapReachable (.dynamic gb gb') exp st' := .core (k := .dynamic gb gb') .expandAll st st' hR0 h'
  refine C26_sample_continuous (.dynamic gb gb') st' hR g hr dens p hT hdens ?_
  intro b' hb'
  have hn : Spec.Neighbour b b' := by
    intro a
    obtain ⟨h1, h2⟩ := hp a
    obtain ⟨h3, h4⟩ := hb' a
    have h5 : (b a : ℝ) ≤ (b' a : ℝ) + 1 := le_of_mul_le_mul_right (h1.trans h4) (half_pos hr)
    have h6 : (b' a : ℝ) ≤ (b a : ℝ) + 1 := le_of_mul_le_mul_right (h3.trans h2) (half_pos hr)
    have h7 : b a ≤ b' a + 1 := by exact_mod_cast h5
    have h8 : b' a ≤ b a + 1 := by exact_mod_cast h6
    rw [abs_le]; omega
  refine ((C18_expand_any (.dynamic gb gb') exp st st' hR0 h').2.2.1 b').2 ?_
  have hI : RInv (octreeLawful d) true st := hR0.spec.1
  obtain ⟨x, hx⟩ := Option.isSome_iff_exists.1 ((mem_bundleIndices (octreeLawful d) st hI.inv b).1 hb)
  by_cases he : x.expand = true
  · exact Or.inr ⟨rfl, b, hb, hn, by rw [show st.bundle b = some x from hx, Option.map_some, he], hv⟩
  · left
    have hf : st.abs.flags b = some false := by
      show (st.bundle b).map Bundle.expand = some false
      rw [hx, Option.map_some, Bool.eq_false_iff.2 he]
    have := hI.closed b hf b' rfl hn
    exact (mem_bundleIndices (octreeLawful d) st hI.inv b').2 ((mem_allocated_iff st b').1 this)

/-- **C26** (after expansion, occupancy maps). -/
theorem C26_occupancy_expanded_continuous {W E M : Type} [AddCommMonoid W] (fl : Flavour ℝ d W E) (gb : Nat → Nat) (gb' : Nat) (g : Geo ℝ d) (hr : 0 < g.r) (defRay : Pt ℝ d → Pt ℝ d → List (Idx d))
    (exp : Occ W E → Bool) (st st' : St (octreeBackend d) (Occ W E)) (h : OccReachable fl (.dynamic gb gb') g defRay exp st) (h' : allocPartials true exp st = some st')
    (b : Idx d) (hb : b ∈ st.bundleIndices) (hv : ∃ c, c < 2 ^ d ∧ ∃ s, st.content c (generateIndex b c) = some s ∧ exp s = true)
    (dens : Multiset E → Pt ℝ d → ℝ) (occ : M → Occ W E → ℝ) (m : M) (p : Pt ℝ d) (hp : Spec.InClosedBundle g.r b (g.toMap p)) (hT : ContinuousAt g.toMap p)
    (hdens : ∀ s, ContinuousAt (dens s) (g.toMap p)) :
    ∃ F : Pt ℝ d → Option ℝ, (∀ q, occSampleBilinearAt g true dens occ q (some m) st' = .ok (F q)) ∧ (∀ᶠ q in 𝓝 p, (F q).isSome = true) ∧ ContinuousAt (fun q => (F q).getD 0) p := by
  obtain ⟨ops, hops⟩ := h
  have hR0 := occ_reachable fl g (.dynamic gb gb') defRay exp ops _ st .init hops
  refine ⟨fun q => sampleBilinearAt g true (fun o x => occValue dens (occ m) x o) q st', fun q => rfl, ?_⟩
  refine C26_expanded_any gb gb' g hr exp st st' hR0 h' b hb hv _ p hp hT ?_
  intro o
  unfold occValue
  cases o.data with
  | none => exact continuousAt_const
  | some s => exact (hdens s).mul continuousAt_const

end

theorem anyHist_sample : (occRun (occFlavour ℚ 2) unitGeo true xRay anyExp anyHist (anyKind.init _)).any (fun st =>
    decide ((![1, 0] : Idx 2) ∈ st.bundleIndices) && (occSampleBilinearAt unitGeo true (fun _ _ => 1) (fun (m : ℚ) _ => m) pA (some (1 / 3)) st).toOption == some (some (1 / 3))) = true := by
  decide +kernel

/-- Non-vacuity for C25: a dynamic occupancy map with a hit `pA` in the bundle (1, 0); with densities 1 and occupancies 1/3 the sample at `pA` is 1/3. -/
example : ∃ st : St (octreeBackend 2) (Occ Nat (Pt ℚ 2)), OccReachable (occFlavour ℚ 2) anyKind unitGeo xRay anyExp st ∧ Spec.InBundle unitGeo.r ![1, 0] (unitGeo.toMap pA) ∧
    (![1, 0] : Idx 2) ∈ st.bundleIndices ∧ occSampleBilinearAt unitGeo true (fun _ _ => 1) (fun (m : ℚ) _ => m) pA (some (1 / 3)) st = .ok (some (1 / 3)) := by
  have h := anyHist_sample
  cases e : occRun (occFlavour ℚ 2) unitGeo true xRay anyExp anyHist (anyKind.init _) with
  | none => rw [e] at h; cases h
  | some st =>
    rw [e] at h
    obtain ⟨h1, h2⟩ := (Bool.and_eq_true _ _).mp h
    refine ⟨st, ⟨anyHist, e⟩, fun i => ?_, of_decide_eq_true h1, ?_⟩
    · fin_cases i <;> simp [unitGeo, pA] <;> norm_num
    · have h3 := eq_of_beq h2
      cases e2 : occSampleBilinearAt unitGeo true (fun _ _ => 1) (fun (m : ℚ) _ => m) pA (some (1 / 3)) st with
      | error m => rw [e2] at h3; cases h3
      | ok y => rw [e2] at h3; exact e2.trans (congrArg _ (Option.some.inj h3))

end Ndt
