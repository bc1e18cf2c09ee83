import Verif.Props.Sampling
import Verif.Props.Expand
import Verif.Proofs.SerialMap
import Mathlib.Topology.Algebra.Monoid
import Mathlib.Topology.Instances.Real.Lemmas
import Mathlib.Data.Set.Finite.Lattice

/-! Property theorems C26 (continued): continuity of bilinear sampling, as a function of the point. -/

namespace Ndt
open St Abs Topology Filter

section
variable {d : Nat}

/-- the interpolation weights of a fixed bundle are continuous -/
theorem continuous_weightAt (r : ℝ) (b : Idx d) (c : Nat) : Continuous fun p : Pt ℝ d => weightAt r b p c := by
  unfold weightAt
  simp only [interpolationWeight_eq]
  refine continuous_finset_prod _ fun i _ => ?_
  have h : Continuous fun p : Pt ℝ d => interpolationWeights b p (bundleResolutionInv r) i := by
    unfold interpolationWeights
    by_cases hb : b i % 2 ≠ 0
    · simp only [if_pos hb]; fun_prop
    · simp only [if_neg hb]; fun_prop
  by_cases hc : c.testBit i.1 = true
  · simp only [if_pos hc]; exact h
  · simp only [if_neg hc]; exact continuous_const.sub h

/-- close points lie in bundles whose closure contains the point -/
theorem eventually_inClosedBundle {r : ℝ} (hr : 0 < r) (p : Pt ℝ d) : ∀ᶠ q in 𝓝 p, Spec.InClosedBundle r (toBundleIndex r q) p := by
  have hinv : bundleResolutionInv r = 2 / r := bundleResolutionInv_eq' r
  have key : ∀ i : Fin d, ∀ᶠ q in 𝓝 p, ((toBundleIndex r q i : ℤ) : ℝ) * (r / 2) ≤ p i ∧ p i ≤ ((toBundleIndex r q i : ℝ) + 1) * (r / 2) := by
    intro i
    let x := p i * bundleResolutionInv r
    have hx : p i = x * (r / 2) := by show p i = p i * bundleResolutionInv r * (r / 2); rw [hinv]; field_simp
    have hc : Tendsto (fun q : Pt ℝ d => q i * bundleResolutionInv r) (𝓝 p) (𝓝 x) :=
      (((continuous_apply i).mul continuous_const).continuousAt : ContinuousAt (fun q : Pt ℝ d => q i * bundleResolutionInv r) p)
    have h1 : ∀ᶠ q in 𝓝 p, q i * bundleResolutionInv r < (⌊x⌋ : ℝ) + 1 := hc.eventually (eventually_lt_nhds (Int.lt_floor_add_one x))
    have h2 : ∀ᶠ q in 𝓝 p, (⌈x⌉ : ℝ) - 1 < q i * bundleResolutionInv r := hc.eventually (eventually_gt_nhds (by have := Int.ceil_lt_add_one x; linarith))
    filter_upwards [h1, h2] with q h1 h2
    have e : toBundleIndex r q i = ⌊q i * bundleResolutionInv r⌋ := rfl
    rw [e, hx]
    have f1 : ⌊q i * bundleResolutionInv r⌋ ≤ ⌊x⌋ := by
      have : ⌊q i * bundleResolutionInv r⌋ < ⌊x⌋ + 1 := Int.floor_lt.2 (by push_cast; exact h1)
      omega
    have f2 : ⌈x⌉ - 1 ≤ ⌊q i * bundleResolutionInv r⌋ := Int.le_floor.2 (by push_cast; exact h2.le)
    have g1 : ((⌊q i * bundleResolutionInv r⌋ : ℤ) : ℝ) ≤ x := (by exact_mod_cast f1 : ((⌊q i * bundleResolutionInv r⌋ : ℤ) : ℝ) ≤ ⌊x⌋).trans (Int.floor_le x)
    have g2 : x ≤ ((⌊q i * bundleResolutionInv r⌋ : ℤ) : ℝ) + 1 := by
      have : (⌈x⌉ : ℝ) - 1 ≤ ((⌊q i * bundleResolutionInv r⌋ : ℤ) : ℝ) := by exact_mod_cast f2
      have := Int.le_ceil x
      linarith
    exact ⟨mul_le_mul_of_nonneg_right g1 (half_pos hr).le, mul_le_mul_of_nonneg_right g2 (half_pos hr).le⟩
  exact (eventually_all.2 key)

theorem finite_closedBundles {r : ℝ} (hr : 0 < r) (p : Pt ℝ d) : {b : Idx d | Spec.InClosedBundle r b p}.Finite := by
  refine (Set.Finite.pi' (fun i : Fin d => Set.finite_Icc (⌈p i / (r / 2)⌉ - 1) ⌊p i / (r / 2)⌋)).subset ?_
  intro b hb i
  obtain ⟨h1, h2⟩ := hb i
  have h3 := (le_div_iff₀ (half_pos hr)).2 h1
  have h4 := (div_le_iff₀ (half_pos hr)).2 h2
  refine ⟨?_, Int.le_floor.2 h3⟩
  have : ⌈p i / (r / 2)⌉ ≤ b i + 1 := Int.ceil_le.2 (by push_cast; exact h4)
  omega

/-- the sample in an allocated bundle -/
theorem sampleWith_allocated {D K : Type} [Inhabited D] [Field K] {B : Backend d} (L : B.Lawful) (dyn : Bool) (w : Nat → K) (f : D → K) (bi : Idx d) (st : St B D) (hI : RInv L dyn st)
    (hv : st.valid dyn bi = true) (ha : bi ∈ st.bundleIndices) :
    sampleWith dyn w f bi st = some (∑ c ∈ Finset.range (2 ^ d), w c * f (st.abs.val c (generateIndex bi c))) := by
  have ha' : (st.bundle bi).isSome = true := (mem_bundleIndices L st hI.inv bi).1 ha
  have hok : B.ok st.bundles bi = true := by
    by_contra h
    unfold bundle Backend.look at ha'
    rw [if_neg h] at ha'
    cases ha'
  have hex : ∃ x, sampleWith dyn w f bi st = some x := by
    unfold sampleWith
    rw [if_pos hv, if_pos hok]
    cases B.get st.bundles bi <;> exact ⟨_, rfl⟩
  obtain ⟨x, hx⟩ := hex
  rw [hx, ((sampleWith_spec L dyn w f bi st hI).1 x hx).1 ⟨hv, (mem_allocated_iff st bi).2 ha'⟩]

/-- continuity in map coordinates -/
theorem continuousAt_bilinear {D : Type} [Inhabited D] {B : Backend d} (L : B.Lawful) (dyn : Bool) (st : St B D) (hI : RInv L dyn st) {r : ℝ} (hr : 0 < r)
    (dens : D → Pt ℝ d → ℝ) (p : Pt ℝ d) (hdens : ∀ s, ContinuousAt (dens s) p)
    (hb : ∀ b, Spec.InClosedBundle r b p → st.valid dyn b = true ∧ b ∈ st.bundleIndices) :
    (∀ᶠ q in 𝓝 p, (sampleBilinear r dyn dens q (toBundleIndex r q) st).isSome = true) ∧
    ContinuousAt (fun q => (sampleBilinear r dyn dens q (toBundleIndex r q) st).getD 0) p := by
  let F : Idx d → Pt ℝ d → ℝ := fun b q => ∑ c ∈ Finset.range (2 ^ d), weightAt r b q c * dens (st.abs.val c (generateIndex b c)) q
  have hval : ∀ q, Spec.InClosedBundle r (toBundleIndex r q) p → sampleBilinear r dyn dens q (toBundleIndex r q) st = some (F (toBundleIndex r q) q) := by
    intro q hq
    obtain ⟨h1, h2⟩ := hb _ hq
    exact sampleWith_allocated L dyn _ (fun s => dens s q) _ st hI h1 h2
  have hev := eventually_inClosedBundle hr p
  refine ⟨hev.mono fun q hq => by rw [hval q hq]; rfl, ?_⟩
  have hF : ∀ b, ContinuousAt (F b) p := by
    intro b
    exact tendsto_finset_sum _ fun c _ => ((continuous_weightAt r b c).continuousAt).mul (hdens _)
  have hself : Spec.InClosedBundle r (toBundleIndex r p) p := hev.self_of_nhds
  have hsame : ∀ b, Spec.InClosedBundle r b p → F b p = F (toBundleIndex r p) p := by
    intro b hbp
    exact C26_interpolation_continuous hr (fun c k => dens (st.abs.val c k) p) b (toBundleIndex r p) p hbp hself
  rw [ContinuousAt, hval p hself, Option.getD_some]
  rw [tendsto_def]
  intro V hV
  have hall : ∀ᶠ q in 𝓝 p, ∀ b ∈ {b : Idx d | Spec.InClosedBundle r b p}, F b q ∈ V := by
    refine (eventually_all_finite (finite_closedBundles hr p)).2 fun b hbp => ?_
    have := hF b
    rw [ContinuousAt, hsame b hbp] at this
    exact this hV
  filter_upwards [hev, hall] with q h1 h2
  show (sampleBilinear r dyn dens q (toBundleIndex r q) st).getD 0 ∈ V
  rw [hval q h1]
  exact h2 _ h1

/-- **C26** (continuity). Let `p` be a point such that all bundles whose closure contains `p` (in map coordinates) are allocated. Then, whatever history led to the map and whatever the distributions are (as long as
each density is continuous at `p`), bilinear sampling is defined in a neighbourhood of `p` and is continuous at `p` – on faces, edges and corners of bundles as well as inside of them. -/
theorem C26_sample_continuous {D : Type} [Inhabited D] (k : Kind d) {exp : D → Bool} (st : St k.backend D) (hR : MapReachable k exp st) (g : Geo ℝ d) (hr : 0 < g.r)
    (dens : D → Pt ℝ d → ℝ) (p : Pt ℝ d) (hT : ContinuousAt g.toMap p) (hdens : ∀ s, ContinuousAt (dens s) (g.toMap p))
    (hb : ∀ b, Spec.InClosedBundle g.r b (g.toMap p) → b ∈ st.bundleIndices) :
    (∀ᶠ q in 𝓝 p, (sampleBilinearAt g k.dyn dens q st).isSome = true) ∧ ContinuousAt (fun q => (sampleBilinearAt g k.dyn dens q st).getD 0) p := by
  obtain ⟨h1, h2⟩ := continuousAt_bilinear k.lawful k.dyn st hR.spec.1 hr dens (g.toMap p) hdens fun b h => ⟨hR.valid b (hb b h), hb b h⟩
  exact ⟨hT.eventually h1, ContinuousAt.comp (f := g.toMap) h2 hT⟩

/-- **C26** (continuity, occupancy maps): the same for bilinear sampling of (weighted) occupancy maps with an inverse model `m`. -/
theorem C26_occupancy_continuous {W E M : Type} [AddCommMonoid W] (k : Kind d) {exp : Occ W E → Bool} (st : St k.backend (Occ W E)) (hR : MapReachable k exp st) (g : Geo ℝ d) (hr : 0 < g.r)
    (dens : Multiset E → Pt ℝ d → ℝ) (occ : M → Occ W E → ℝ) (m : M) (p : Pt ℝ d) (hT : ContinuousAt g.toMap p) (hdens : ∀ s, ContinuousAt (dens s) (g.toMap p))
    (hb : ∀ b, Spec.InClosedBundle g.r b (g.toMap p) → b ∈ st.bundleIndices) :
    ∃ F : Pt ℝ d → Option ℝ, (∀ q, occSampleBilinearAt g k.dyn dens occ q (some m) st = .ok (F q)) ∧ (∀ᶠ q in 𝓝 p, (F q).isSome = true) ∧ ContinuousAt (fun q => (F q).getD 0) p := by
  refine ⟨fun q => sampleBilinearAt g k.dyn (fun o x => occValue dens (occ m) x o) q st, fun q => rfl, ?_⟩
  refine C26_sample_continuous k st hR g hr _ p hT ?_ hb
  intro o
  unfold occValue
  cases o.data with
  | none => exact continuousAt_const
  | some s => exact (hdens s).mul continuousAt_const

/-- **C26** (after expansion). After `allocatePartiallyAllocatedBundles` on a dynamic map, bilinear sampling is continuous at every point of the closure of every bundle that contained a valid distribution before. -/
theorem C26_expanded_continuous (gb : Nat → Nat) (gb' : Nat) (g : Geo ℝ d) (hr : 0 < g.r) (exp : Multiset (Pt ℝ d) → Bool) (st st' : St (octreeBackend d) (Multiset (Pt ℝ d)))
    (h : Reachable (.dynamic gb gb') g exp st) (h' : allocPartials true exp st = some st')
    (b : Idx d) (hb : b ∈ st.bundleIndices) (hv : ∃ c, c < 2 ^ d ∧ ∃ s, st.content c (generateIndex b c) = some s ∧ exp s = true)
    (dens : Multiset (Pt ℝ d) → Pt ℝ d → ℝ) (p : Pt ℝ d) (hp : Spec.InClosedBundle g.r b (g.toMap p)) (hT : ContinuousAt g.toMap p) (hdens : ∀ s, ContinuousAt (dens s) (g.toMap p)) :
    (∀ᶠ q in 𝓝 p, (sampleBilinearAt g true dens q st').isSome = true) ∧ ContinuousAt (fun q => (sampleBilinearAt g true dens q st').getD 0) p := by
  obtain ⟨ops, hops⟩ := h
  have hR0 : MapReachable (.dynamic gb gb') exp st := grid_reachable g (.dynamic gb gb') exp ops _ st .init hops
  have hR : MapReachable (.dynamic gb gb') exp st' := .core (k := .dynamic gb gb') .expandAll st st' hR0 h'
  refine C26_sample_continuous (.dynamic gb gb') st' hR g hr dens p hT hdens ?_
  intro b' hb'
  have hn : Spec.Neighbour b b' := by
    intro a
    obtain ⟨h1, h2⟩ := hp a
    obtain ⟨h3, h4⟩ := hb' a
    have h5 : (b a : ℝ) ≤ (b' a : ℝ) + 1 := le_of_mul_le_mul_right (h1.trans h4) (half_pos hr)
    have h6 : (b' a : ℝ) ≤ (b a : ℝ) + 1 := le_of_mul_le_mul_right (h3.trans h2) (half_pos hr)
    have h7 : b a ≤ b' a + 1 := by exact_mod_cast h5
    have h8 : b' a ≤ b a + 1 := by exact_mod_cast h6
    rw [abs_le]; omega
  refine (C18_expand_allocates_exactly (.dynamic gb gb') g exp st st' ⟨ops, hops⟩ h' b').2 ?_
  have hI : RInv (octreeLawful d) true st := hR0.spec.1
  obtain ⟨x, hx⟩ := Option.isSome_iff_exists.1 ((mem_bundleIndices (octreeLawful d) st hI.inv b).1 hb)
  by_cases he : x.expand = true
  · exact Or.inr ⟨rfl, b, hb, hn, by rw [show st.bundle b = some x from hx, Option.map_some, he], hv⟩
  · left
    have hf : st.abs.flags b = some false := by
      show (st.bundle b).map Bundle.expand = some false
      rw [hx, Option.map_some, Bool.eq_false_iff.2 he]
    have := hI.closed b hf b' rfl hn
    exact (mem_bundleIndices (octreeLawful d) st hI.inv b').2 ((mem_allocated_iff st b').1 this)

end

/-! ### A one-dimensional map with one point, before and after expansion -/

noncomputable def realGeo : Geo ℝ 1 := { r := 1, toMap := id, normal := fun _ => true }

noncomputable def realPoint : Pt ℝ 1 := fun _ => 1 / 5

theorem real_index {x : ℝ} (hx : 0 ≤ x) (hx' : x < 1 / 2) : toBundleIndex realGeo.r (fun _ => x) = fun _ : Fin 1 => (0 : Int) := by
  funext a
  show ⌊x * bundleResolutionInv (1 : ℝ)⌋ = 0
  rw [bundleResolutionInv_eq', Int.floor_eq_iff]
  constructor <;> push_cast <;> linarith

theorem real_index_half : toBundleIndex realGeo.r (fun _ => 1 / 2) = fun _ : Fin 1 => (1 : Int) := by
  funext a
  show ⌊(1 / 2 : ℝ) * bundleResolutionInv (1 : ℝ)⌋ = 1
  rw [bundleResolutionInv_eq', Int.floor_eq_iff]
  constructor <;> push_cast <;> linarith

theorem real_runs_val (exp : Multiset (Pt ℝ 1) → Bool) : ∃ s0 s1, Reachable (.dynamic 0 0) realGeo exp s0 ∧ (∀ b, b ∈ s0.bundleIndices ↔ b = fun _ => 0) ∧
    s0.content 0 (generateIndex (fun _ => 0) 0) = some {realPoint} ∧ allocPartials true exp s0 = some s1 ∧
    ∀ c, c < 2 → ∀ k, s0.abs.val c k = if generateIndex (fun _ => 0) c = k then {realPoint} else 0 := by
  have hacc : accList realGeo (((Kind.dynamic 0 0).init (Multiset (Pt ℝ 1))).abs.valid true) id [realPoint] = [realPoint] := by
    simp [accList, realGeo, Abs.valid]
  have hidx : toBundleIndex realGeo.r realPoint = fun _ => (0 : Int) := real_index (x := 1 / 5) (by norm_num) (by norm_num)
  obtain ⟨s1, h1⟩ : ∃ st, gridRun realGeo true exp [.insert id [realPoint], .core .expandAll] ((Kind.dynamic 0 0).init (Multiset (Pt ℝ 1))) = some st := by
    refine dynamic_run_total realGeo exp 0 0 10 _ _ (Kind.init_rinv (.dynamic 0 0)) (.refl ..) ?_ 10 (le_refl _) ?_ (by decide)
    · intro op hop
      rcases List.mem_cons.1 hop with rfl | hop
      · intro p hp a
        have : p = realPoint := by simpa [accList, realGeo] using hp
        rw [this, hidx]; norm_num
      · rw [List.mem_singleton.1 hop]; trivial
    · intro bi hbi; rw [Kind.init_allocated] at hbi; exact absurd hbi (Set.notMem_empty _)
  simp only [gridRun] at h1
  obtain ⟨s0, h0, h1⟩ := Option.bind_eq_some_iff.1 h1
  obtain ⟨s1', h1, h3⟩ := Option.bind_eq_some_iff.1 h1
  cases h3
  have R0 : Reachable (.dynamic 0 0) realGeo exp s0 := ⟨[.insert id [realPoint]], by simp only [gridRun]; exact (congrArg (·.bind some) h0).trans rfl⟩
  obtain ⟨I0, _, v0, f0, _⟩ := gridInsert_spec (octreeLawful 1) realGeo true id [realPoint] _ s0 (Kind.init_rinv (.dynamic 0 0)) h0
  rw [hacc] at v0 f0
  have B0 : ∀ bj, bj ∈ s0.bundleIndices ↔ bj = fun _ => 0 := by
    intro bj
    rw [mem_bundleIndices (octreeLawful 1) s0 I0.inv, ← mem_allocated_iff, Abs.mem_allocated, f0, Kind.init_flags]
    simp only [List.mem_singleton, exists_eq_left, hidx]
    by_cases e : bj = fun _ => 0
    · rw [if_pos e.symm]; simp [e]
    · rw [if_neg (fun x => e x.symm)]; simp [e]
  refine ⟨s0, s1, R0, B0, ?_, h1, ?_⟩
  rotate_left
  · intro c hc2 k
    have e0 : ((Kind.dynamic (d := 1) 0 0).init (Multiset (Pt ℝ 1))).abs.val c k = 0 := by unfold Abs.val; rw [Kind.init_content]; rfl
    rw [v0 c hc2 k, e0, zero_add]
    by_cases e : generateIndex (fun _ : Fin 1 => (0 : Int)) c = k
    · simp [hidx, e]
    · simp [hidx, e]
  have hc := v0 0 (by decide) (generateIndex (fun _ => 0) 0)
  obtain ⟨b, hb⟩ := Option.isSome_iff_exists.1 ((mem_bundleIndices (octreeLawful 1) s0 I0.inv _).1 ((B0 (fun _ => 0)).2 rfl))
  obtain ⟨a, _, ha⟩ := I0.inv.complete _ b hb 0 (by decide)
  unfold St.content
  rw [ha, Option.map_some]
  have e : s0.abs.val 0 (generateIndex (fun _ => 0) 0) = s0.heap a := by
    show (s0.content 0 _).getD _ = _
    unfold St.content; rw [ha]; rfl
  have e0 : ((Kind.dynamic (d := 1) 0 0).init (Multiset (Pt ℝ 1))).abs.val 0 (generateIndex (fun _ => 0) 0) = 0 := by unfold Abs.val; rw [Kind.init_content]; rfl
  rw [← e, hc, e0, zero_add]
  simp [hidx]

theorem real_runs (exp : Multiset (Pt ℝ 1) → Bool) : ∃ s0 s1, Reachable (.dynamic 0 0) realGeo exp s0 ∧ (∀ b, b ∈ s0.bundleIndices ↔ b = fun _ => 0) ∧
    s0.content 0 (generateIndex (fun _ => 0) 0) = some {realPoint} ∧ allocPartials true exp s0 = some s1 := by
  obtain ⟨s0, s1, h0, hb, hc, h1, _⟩ := real_runs_val exp
  exact ⟨s0, s1, h0, hb, hc, h1⟩

/-- Non-vacuity: after the expansion, sampling is continuous on the whole closed bundle of the point, in particular on its border, for any continuous density. -/
example (dens : Multiset (Pt ℝ 1) → Pt ℝ 1 → ℝ) (hdens : ∀ s, Continuous (dens s)) : ∃ s1 : St (octreeBackend 1) (Multiset (Pt ℝ 1)),
    ∀ x : ℝ, 0 ≤ x → x ≤ 1 / 2 → ContinuousAt (fun q => (sampleBilinearAt realGeo true dens q s1).getD 0) (fun _ => x) := by
  obtain ⟨s0, s1, h0, hb, hc, h1⟩ := real_runs fun _ => true
  refine ⟨s1, fun x hx hx' => ?_⟩
  exact (C26_expanded_continuous 0 0 realGeo (by norm_num [realGeo]) _ s0 s1 h0 h1 _ ((hb _).2 rfl) ⟨0, by decide, _, hc, rfl⟩ dens (fun _ => x)
    (fun a => by constructor <;> simp [realGeo] <;> linarith) continuousAt_id fun s => (hdens s).continuousAt).2

/-- **C26** (why the neighbours must be allocated): before the expansion the sampled value jumps at the border of the bundle, from the interpolated value to 0, even for constant densities. -/
theorem C26_unallocated_jump : ∃ s0 : St (octreeBackend 1) (Multiset (Pt ℝ 1)), Reachable (.dynamic 0 0) realGeo (fun _ => true) s0 ∧
    ¬ ContinuousAt (fun q => (sampleBilinearAt realGeo true (fun _ _ => 1) q s0).getD 0) (fun _ => 1 / 2) := by
  obtain ⟨s0, s1, h0, hb, hc, h1⟩ := real_runs fun _ => true
  refine ⟨s0, h0, fun hcont => ?_⟩
  have hI : RInv (octreeLawful 1) true s0 := h0.rinv
  let h : ℝ → ℝ := fun x => (sampleBilinearAt realGeo true (fun _ _ => (1 : ℝ)) (fun _ => x) s0).getD 0
  have hin : ContinuousAt (fun x : ℝ => (fun _ => x : Pt ℝ 1)) (1 / 2) := (continuous_pi fun _ => continuous_id).continuousAt
  have hh : ContinuousAt h (1 / 2) := ContinuousAt.comp (f := fun x : ℝ => (fun _ => x : Pt ℝ 1)) hcont hin
  have hat1 : h (1 / 2) = 0 := by
    show (sampleBilinear realGeo.r true (fun _ _ => (1 : ℝ)) (fun _ => 1 / 2) (toBundleIndex realGeo.r (fun _ => 1 / 2)) s0).getD 0 = 0
    rw [real_index_half]
    unfold sampleBilinear
    cases hx : sampleWith true (interpolationWeight (interpolationWeights (fun _ => 1) (fun _ => 1 / 2) (bundleResolutionInv realGeo.r))) (fun _ => (1 : ℝ)) (fun _ => 1) s0 with
    | none => rfl
    | some y =>
      refine ((sampleWith_spec (octreeLawful 1) true _ _ _ s0 hI).1 y hx).2 ?_
      rintro ⟨_, ha⟩
      have := (hb _).1 ((mem_bundleIndices (octreeLawful 1) s0 hI.inv _).2 ((mem_allocated_iff s0 _).1 ha))
      have := congrFun this 0
      norm_num at this
  have hleft : ∀ x : ℝ, 0 ≤ x → x < 1 / 2 → h x = 1 := by
    intro x hx hx'
    show (sampleBilinear realGeo.r true (fun _ _ => (1 : ℝ)) (fun _ => x) (toBundleIndex realGeo.r (fun _ => x)) s0).getD 0 = 1
    rw [real_index hx hx']
    unfold sampleBilinear
    rw [sampleWith_allocated (octreeLawful 1) true _ _ _ s0 hI rfl ((hb _).2 rfl), Option.getD_some]
    simp only [mul_one]
    exact sum_interpolationWeight _
  have t1 : Tendsto h (𝓝[<] (1 / 2)) (𝓝 0) := hat1 ▸ hh.tendsto.mono_left nhdsWithin_le_nhds
  have t2 : Tendsto h (𝓝[<] (1 / 2)) (𝓝 1) := by
    refine tendsto_const_nhds.congr' ?_
    have : ∀ᶠ x : ℝ in 𝓝[<] (1 / 2), 0 ≤ x := (eventually_ge_nhds (by norm_num : (0 : ℝ) < 1 / 2)).filter_mono nhdsWithin_le_nhds
    filter_upwards [this, self_mem_nhdsWithin] with x h1 h2
    exact (hleft x h1 h2).symm
  exact zero_ne_one (tendsto_nhds_unique t1 t2)

end Ndt
