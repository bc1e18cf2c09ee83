import Verif.Proofs.Simulate
import Verif.Props.Convert
import Verif.Props.SerialMore

/-! Property theorems C68: nothing but the visible state of a map influences its later behaviour; in particular maps that were saved and loaded, or converted
to a static map and back, cannot be told apart from the original. -/

namespace Ndt
open St

section
variable {d : Nat} {D : Type} [Inhabited D]

theorem BothOr.mono {α β : Type} {R S : α → β → Prop} {x : Option α} {y : Option β} (h : BothOr R x y) (hRS : ∀ a b, R a b → S a b) : BothOr S x y := by
  cases x <;> cases y <;> first | exact h.elim | trivial | exact hRS _ _ h

/-- two dynamic maps in reachable states with the same visible state -/
theorem like_dynamic {st st' : St (octreeBackend d) D} (hI : RInv (octreeLawful d) true st) (hI' : RInv (octreeLawful d) true st') (h : Spec.Restored st st') :
    Like (octreeLawful d) true st st' := like_of_restored hI hI' h (fun _ => rfl) (fun bi _ => good_of_ok (fun _ => rfl) (fun _ _ => rfl) bi)

/-- two maps of the same kind in reachable states with the same visible state -/
theorem like_reachable (k : Kind d) {exp exp' : D → Bool} {st st' : St k.backend D} (hR : MapReachable k exp st) (hR' : MapReachable k exp' st') (h : Spec.Restored st st') :
    Like k.lawful k.dyn st st' := by
  have hB : ∀ i, k.backend.ok st'.bundles i = k.backend.ok st.bundles i := by
    intro i
    have e1 := congrFun hR.spec.2.okB i
    have e2 := congrFun hR'.spec.2.okB i
    exact e2.trans e1.symm
  refine like_of_restored hR.spec.1 hR'.spec.1 h hB fun bi _ => good_of_ok hB ?_ bi
  · intro c i
    have e1 := congrFun (congrFun hR.spec.2.okD c) i
    have e2 := congrFun (congrFun hR'.spec.2.okD c) i
    exact e2.trans e1.symm

end

section
variable {K : Type} [Field K] [LinearOrder K] [FloorRing K] {d : Nat} {B : Backend d} {L : B.Lawful} {dyn : Bool}

theorem like_outcome {D : Type} [Inhabited D] {x y : Option (St B D)} (h : BothOr (Like L dyn) x y) : Spec.SameOutcome x y := h.mono fun _ _ h => h.restored

theorem like_grid_samples {st st' : St B (Multiset (Pt K d))} (h : Like L dyn st st') (geo : Geo K d) (exp : Multiset (Pt K d) → Bool) (ops : List (GridOp K d))
    (a b : St B (Multiset (Pt K d))) (ha : gridRun geo dyn exp ops st = some a) (hb : gridRun geo dyn exp ops st' = some b) (dens : Multiset (Pt K d) → Pt K d → K) (p : Pt K d) :
    sampleNNAt geo dyn dens p b = sampleNNAt geo dyn dens p a ∧ sampleBilinearAt geo dyn dens p b = sampleBilinearAt geo dyn dens p a := by
  have := h.gridRun geo exp ops
  rw [ha, hb] at this
  exact ⟨this.sampleWith .., this.sampleWith ..⟩

theorem like_occ_samples {W E M : Type} [AddCommMonoid W] {st st' : St B (Occ W E)} (h : Like L dyn st st') (fl : Flavour K d W E) (geo : Geo K d)
    (defRay : Pt K d → Pt K d → List (Idx d)) (exp : Occ W E → Bool) (ops : List (OccMapOp K d W E))
    (a b : St B (Occ W E)) (ha : occRun fl geo dyn defRay exp ops st = some a) (hb : occRun fl geo dyn defRay exp ops st' = some b)
    (dens : Multiset E → Pt K d → K) (occ : M → Occ W E → K) (p : Pt K d) (ivm : Option M) :
    occSampleNNAt geo dyn dens occ p ivm b = occSampleNNAt geo dyn dens occ p ivm a ∧
    occSampleBilinearAt geo dyn dens occ p ivm b = occSampleBilinearAt geo dyn dens occ p ivm a := by
  have := h.occRun fl geo defRay exp ops
  rw [ha, hb] at this
  cases ivm with
  | none => exact ⟨rfl, rfl⟩
  | some m =>
    refine ⟨?_, ?_⟩
    · exact congrArg Except.ok (this.sampleWith ..)
    · exact congrArg Except.ok (this.sampleWith ..)

end

/-! ### the visible state determines the future -/

section
variable {K : Type} [Field K] [LinearOrder K] [FloorRing K] {d : Nat}

/-- **C68.** Take any two NDT maps of the same kind, reached by any histories, with the same bundles, contents and bounds (their expand flags, the shape of their trees and their heaps may
differ). Then every later history of insertions, lookups and expansions leaves the contract on both or on neither, ends in the same
bundles, contents and bounds, and every sample taken afterwards is the same. -/
theorem C68_visible_state (k : Kind d) (exp1 exp2 : Multiset (Pt K d) → Bool) (st st' : St k.backend (Multiset (Pt K d))) (h1 : MapReachable k exp1 st) (h2 : MapReachable k exp2 st')
    (h : Spec.Restored st st') (geo : Geo K d) (exp : Multiset (Pt K d) → Bool) (ops : List (GridOp K d)) :
    Spec.SameOutcome (gridRun geo k.dyn exp ops st) (gridRun geo k.dyn exp ops st') ∧
    ∀ a b, gridRun geo k.dyn exp ops st = some a → gridRun geo k.dyn exp ops st' = some b → ∀ dens p,
      sampleNNAt geo k.dyn dens p b = sampleNNAt geo k.dyn dens p a ∧ sampleBilinearAt geo k.dyn dens p b = sampleBilinearAt geo k.dyn dens p a := by
  have hl := like_reachable k h1 h2 h
  exact ⟨like_outcome (hl.gridRun geo exp ops), fun a b ha hb dens p => like_grid_samples hl geo exp ops a b ha hb dens p⟩

/-- **C68** for occupancy maps, plain or weighted; the later operations include visibility-based insertion. -/
theorem C68_visible_state_occupancy {W E M : Type} [AddCommMonoid W] (k : Kind d) (exp1 exp2 : Occ W E → Bool) (st st' : St k.backend (Occ W E)) (h1 : MapReachable k exp1 st)
    (h2 : MapReachable k exp2 st') (h : Spec.Restored st st') (fl : Flavour K d W E) (geo : Geo K d) (defRay : Pt K d → Pt K d → List (Idx d)) (exp : Occ W E → Bool)
    (ops : List (OccMapOp K d W E)) :
    Spec.SameOutcome (occRun fl geo k.dyn defRay exp ops st) (occRun fl geo k.dyn defRay exp ops st') ∧
    ∀ a b, occRun fl geo k.dyn defRay exp ops st = some a → occRun fl geo k.dyn defRay exp ops st' = some b →
      ∀ (dens : Multiset E → Pt K d → K) (occ : M → Occ W E → K) p ivm,
      occSampleNNAt geo k.dyn dens occ p ivm b = occSampleNNAt geo k.dyn dens occ p ivm a ∧
      occSampleBilinearAt geo k.dyn dens occ p ivm b = occSampleBilinearAt geo k.dyn dens occ p ivm a := by
  have hl := like_reachable k h1 h2 h
  exact ⟨like_outcome (hl.occRun fl geo defRay exp ops), fun a b ha hb dens occ p ivm => like_occ_samples hl fl geo defRay exp ops a b ha hb dens occ p ivm⟩

/-! ### loaded maps -/

variable {P : Type} {g : Nat → Nat} {g' : Nat}

/-- **C68** (loaded NDT maps). Load a saved map (any previous directory contents, interleaving of the writers, schedule of the loaders, as in C31). Whatever is done
later, with the original and with the loaded map, has the same results, although the loaded map has lost the expand flags. -/
theorem C68_loaded {exp0 : Multiset (Pt K d) → Bool} (hd : 0 < d) (m : MapObj (octreeBackend d) K P (Multiset (Pt K d))) (hR : MapReachable (.dynamic g g') exp0 m.st) (hne : m.st.bundleIndices ≠ [])
    (io : Io K P) (F : Fmt (Multiset (Pt K d))) (hF : F.reported = F.codec.size) (hok : Storable io F m) (h : Header K P d) (hh : dynHeader m = some h)
    (old : Option Dir) (t : SaveTrace d old (headerBytes io h) (storeFiles io F m))
    (canOpen : Nat → Bool) (sched : List Nat) (hopen : ∀ c ∈ sched, canOpen c = true) (hj : (Threads.run canOpen sched).Joined (2 ^ d))
    (f : Nat → Nat) (f' : Nat) (junk : Nat → Multiset (Pt K d)) :
    ∃ m', loadDir io d F (rebuildDynamic f f' junk) canOpen sched (runEffs old t.effects) = .loaded m' ∧
      ∀ geo exp ops, Spec.SameOutcome (gridRun geo true exp ops m.st) (gridRun geo true exp ops m'.st) ∧
      ∀ a b, gridRun geo true exp ops m.st = some a → gridRun geo true exp ops m'.st = some b → ∀ dens p,
        sampleNNAt geo true dens p b = sampleNNAt geo true dens p a ∧ sampleBilinearAt geo true dens p b = sampleBilinearAt geo true dens p a := by
  obtain ⟨m', y1, _, _, y4, y5⟩ := load_restores hd m hR.spec.1 hne io F hF hok h hh old t canOpen sched hopen hj f f' junk
  have hl := like_dynamic hR.spec.1 y5 y4
  exact ⟨m', y1, fun geo exp ops => ⟨like_outcome (hl.gridRun geo exp ops), fun a b ha hb dens p => like_grid_samples hl geo exp ops a b ha hb dens p⟩⟩

/-- **C68** (loaded occupancy maps) -/
theorem C68_loaded_occupancy {W E M : Type} [AddCommMonoid W] {exp0 : Occ W E → Bool} (hd : 0 < d) (m : MapObj (octreeBackend d) K P (Occ W E)) (hR : MapReachable (.dynamic g g') exp0 m.st)
    (hne : m.st.bundleIndices ≠ [])
    (io : Io K P) (F : Fmt (Occ W E)) (hF : F.reported = F.codec.size) (hok : Storable io F m) (h : Header K P d) (hh : dynHeader m = some h)
    (old : Option Dir) (t : SaveTrace d old (headerBytes io h) (storeFiles io F m))
    (canOpen : Nat → Bool) (sched : List Nat) (hopen : ∀ c ∈ sched, canOpen c = true) (hj : (Threads.run canOpen sched).Joined (2 ^ d))
    (f : Nat → Nat) (f' : Nat) (junk : Nat → Occ W E) :
    ∃ m', loadDir io d F (rebuildDynamic f f' junk) canOpen sched (runEffs old t.effects) = .loaded m' ∧
      ∀ (fl : Flavour K d W E) geo defRay exp ops, Spec.SameOutcome (occRun fl geo true defRay exp ops m.st) (occRun fl geo true defRay exp ops m'.st) ∧
      ∀ a b, occRun fl geo true defRay exp ops m.st = some a → occRun fl geo true defRay exp ops m'.st = some b →
        ∀ (dens : Multiset E → Pt K d → K) (occ : M → Occ W E → K) p ivm,
        occSampleNNAt geo true dens occ p ivm b = occSampleNNAt geo true dens occ p ivm a ∧
        occSampleBilinearAt geo true dens occ p ivm b = occSampleBilinearAt geo true dens occ p ivm a := by
  obtain ⟨m', y1, _, _, y4, y5⟩ := load_restores hd m hR.spec.1 hne io F hF hok h hh old t canOpen sched hopen hj f f' junk
  have hl := like_dynamic hR.spec.1 y5 y4
  exact ⟨m', y1, fun fl geo defRay exp ops => ⟨like_outcome (hl.occRun fl geo defRay exp ops), fun a b ha hb dens occ p ivm => like_occ_samples hl fl geo defRay exp ops a b ha hb dens occ p ivm⟩⟩

/-! ### converted maps -/

/-- **C68** (converted NDT maps). A dynamic map that was converted to a static map and back behaves like the original under every later history. -/
theorem C68_converted {exp0 : Multiset (Pt K d) → Bool} (st : St (octreeBackend d) (Multiset (Pt K d))) (hR : MapReachable (.dynamic g g') exp0 st) (hne : st.bundleIndices ≠ []) (f : Nat → Nat) (f' : Nat) :
    ∃ size st1 st2, toStatic convDist st = some (size, st1) ∧ toDynamic f f' convDist st1 = some st2 ∧
      ∀ geo exp ops, Spec.SameOutcome (gridRun geo true exp ops st) (gridRun geo true exp ops st2) ∧
      ∀ a b, gridRun geo true exp ops st = some a → gridRun geo true exp ops st2 = some b → ∀ dens p,
        sampleNNAt geo true dens p b = sampleNNAt geo true dens p a ∧ sampleBilinearAt geo true dens p b = sampleBilinearAt geo true dens p a := by
  obtain ⟨size, st1, st2, a1, a2, a3, a4⟩ := convert_back st hR.spec.1 hne convDist (fun _ _ _ x _ => C38_copies (E := Unit).1 x) f f'
  have hl := like_dynamic hR.spec.1 a4 a3
  exact ⟨size, st1, st2, a1, a2, fun geo exp ops => ⟨like_outcome (hl.gridRun geo exp ops), fun a b ha hb dens p => like_grid_samples hl geo exp ops a b ha hb dens p⟩⟩

/-- **C68** (converted occupancy maps) -/
theorem C68_converted_occupancy {M : Type} [IsStrictOrderedRing K] (geo0 : Geo K d) (defRay0 : Pt K d → Pt K d → List (Idx d)) (exp0 : Occ Nat (Pt K d) → Bool) (ops0 : List (OccMapOp K d Nat (Pt K d)))
    (st : St (octreeBackend d) (Occ Nat (Pt K d))) (h : occRun (occFlavour K d) geo0 true defRay0 exp0 ops0 ((Kind.dynamic g g').init _) = some st)
    (hne : st.bundleIndices ≠ []) (f : Nat → Nat) (f' : Nat) :
    ∃ size st1 st2, toStatic convOcc st = some (size, st1) ∧ toDynamic f f' convOcc st1 = some st2 ∧
      ∀ geo defRay exp ops, Spec.SameOutcome (occRun (occFlavour K d) geo true defRay exp ops st) (occRun (occFlavour K d) geo true defRay exp ops st2) ∧
      ∀ a b, occRun (occFlavour K d) geo true defRay exp ops st = some a → occRun (occFlavour K d) geo true defRay exp ops st2 = some b →
        ∀ (dens : Multiset (Pt K d) → Pt K d → K) (occ : M → Occ Nat (Pt K d) → K) p ivm,
        occSampleNNAt geo true dens occ p ivm b = occSampleNNAt geo true dens occ p ivm a ∧
        occSampleBilinearAt geo true dens occ p ivm b = occSampleBilinearAt geo true dens occ p ivm a := by
  have hR : MapReachable (.dynamic g g') exp0 st := occ_reachable _ geo0 (.dynamic g g') defRay0 exp0 ops0 _ st .init h
  obtain ⟨size, st1, st2, a1, a2, a3, a4⟩ := convert_back st hR.spec.1 hne convOcc (fun c hc i x hx =>
    (C38_copies (D := Nat)).2 x (C27_no_empty_distribution (occFlavour K d) (.dynamic g g') geo0 defRay0 exp0 ops0 st h c hc i x hx)) f f'
  have hl := like_dynamic hR.spec.1 a4 a3
  exact ⟨size, st1, st2, a1, a2, fun geo defRay exp ops => ⟨like_outcome (hl.occRun _ geo defRay exp ops), fun a b ha hb dens occ p ivm => like_occ_samples hl _ geo defRay exp ops a b ha hb dens occ p ivm⟩⟩

end

/-! ### non-vacuity -/

/-- Two maps with the same visible state and different expand flags: expanding a bundle again whose neighbours all exist. The first map looked up the three neighbours of `[0]` and then expanded it; the second one only looked
them up. -/
theorem sample_flags : ∃ st st' : St (arrayBackend 1) (Multiset (Pt ℚ 1)), MapReachable (Kind.static (fun _ => 3) (fun _ => 0)) (fun _ => true) st ∧
    MapReachable (Kind.static (fun _ => 3) (fun _ => 0)) (fun _ => true) st' ∧ Spec.Restored st st' ∧
    (st.bundle (fun _ => 1)).map Bundle.expand = some false ∧ (st'.bundle (fun _ => 1)).map Bundle.expand = some true := by
  let k : Kind 1 := .static (fun _ => 3) (fun _ => 0)
  let look : Nat → CoreOp 1 := fun i => .bundleAt (fun _ => (i : Int))
  have hv : ∀ i, (k.init (Multiset (Pt ℚ 1))).abs.valid false i = true → (k.init (Multiset (Pt ℚ 1))).abs.Good i := fun i h => Kind.static_good _ _ _ h
  have hI0 : RInv k.lawful false (k.init (Multiset (Pt ℚ 1))) := k.init_rinv
  have val0 : ∀ i : Nat, i < 5 → (k.init (Multiset (Pt ℚ 1))).abs.valid false (fun _ => (i : Int)) = true := by
    intro i hi
    refine (Kind.static_valid _ _ _).2 fun a => ?_
    constructor <;> omega
  have step : ∀ (st : St (arrayBackend 1) (Multiset (Pt ℚ 1))) (i : Nat), i < 5 → MapReachable k (fun _ => true) st →
      ∃ s, coreStep false (fun _ => true) (look i) st = some s ∧ s.abs = st.abs.alloc false (fun _ => (i : Int)) := by
    intro st i hi hR
    have hk := hR.spec.2
    have hvi : st.valid false (fun _ => (i : Int)) = true := (hk.valid _).trans (val0 i hi)
    obtain ⟨b, s, h1, _, h3, _⟩ := getAllocate_spec k.lawful false (fun _ => (i : Int)) st hR.spec.1.inv ((hk.good _).2 (hv _ (val0 i hi)))
    refine ⟨s, ?_, h3⟩
    simp only [look, coreStep, getDistributionBundle]
    rw [if_pos hvi, h1]; rfl
  obtain ⟨s0, a0, b0⟩ := step _ 0 (by decide) .init
  have r0 : MapReachable k (fun _ => true) s0 := .core (k := k) _ _ s0 .init a0
  obtain ⟨s1, a1, b1⟩ := step s0 1 (by decide) r0
  have r1 : MapReachable k (fun _ => true) s1 := .core (k := k) _ s0 s1 r0 a1
  obtain ⟨s2, a2, b2⟩ := step s1 2 (by decide) r1
  have r2 : MapReachable k (fun _ => true) s2 := .core (k := k) _ s1 s2 r1 a2
  have f2 : ∀ bj, s2.abs.flags bj = if bj = (fun _ => 2) ∨ bj = (fun _ => 1) ∨ bj = (fun _ => 0) then some true else none := by
    intro bj
    have fi : (k.init (Multiset (Pt ℚ 1))).abs.flags = fun _ => none := funext fun b => Kind.init_flags k b
    rw [b2, Abs.flags_alloc, b1, Abs.flags_alloc, Abs.flags_alloc, b0, Abs.flags_alloc, Abs.flags_alloc, Abs.flags_alloc, fi]
    by_cases e2 : bj = (fun _ => 2)
    · subst e2; decide
    · by_cases e1 : bj = (fun _ => 1)
      · subst e1; decide
      · by_cases e0 : bj = (fun _ => 0)
        · subst e0; decide
        · rw [if_neg (by simpa using e2), if_neg (by simpa using e1), if_neg (by simpa using e0), if_neg (by simp [e0, e1, e2])]
  obtain ⟨s3, a3⟩ := coreStep_total k.lawful false (fun _ => true) (.expandOne (fun _ => 1)) s2 r2.spec.1
    (fun i h => (r2.spec.2.good i).2 (hv i ((r2.spec.2.valid i).symm.trans h)))
  have r3 : MapReachable k (fun _ => true) s3 := .core (k := k) _ s2 s3 r2 a3
  have hbun : s2.bundle (fun _ => 1) ≠ none := by
    intro e
    have := f2 (fun _ => 1)
    rw [if_pos (by simp)] at this
    have h' : (s2.bundle (fun _ => 1)).map Bundle.expand = some true := this
    rw [e] at h'; cases h'
  have hal : (fun _ => 1 : Idx 1) ∈ s2.abs.allocated := by rw [Abs.mem_allocated, f2, if_pos (by simp)]; rfl
  have hg3 : allocPartialList false (fun _ => true) [fun _ => 1] s2 = some s3 := by
    simp only [coreStep] at a3
    have hgb : getBundle false (fun _ => 1) s2 = some (s2.bundle (fun _ => 1)) := by
      have hv1 : s2.valid false (fun _ => 1) = true := (r2.spec.2.valid _).trans (val0 1 (by decide))
      have hok : (arrayBackend 1).ok s2.bundles (fun _ => 1) = true := (good_of_allocated k.lawful s2 r2.spec.1.inv _ hal).1
      unfold getBundle
      rw [if_pos hv1, if_pos hok]
      unfold St.bundle
      rw [look_of_ok _ _ _ hok]
    rw [hgb] at a3
    obtain ⟨b, hb⟩ := Option.ne_none_iff_exists'.1 hbun
    rw [hb] at a3
    simp only at a3
    simp only [St.allocPartialList, a3]
  have hm : ∀ b ∈ [(fun _ => 1 : Idx 1)], b ∈ s2.abs.allocated := by intro b hb; rw [List.mem_singleton] at hb; subst hb; exact hal
  obtain ⟨_, x2, x3, x4⟩ := (allocPartialList_spec k.lawful false (fun _ => true) _ s2 r2.spec.1 hm).1 s3 hg3
  have hfl := (Abs.flags_allocPartialList false (fun _ => true) _ s2.abs r2.spec.1.ainv r2.spec.1.rng (by simp) hm (fun b hb ht => x4 b hb (by simp) ht)).2
  have htr : s2.abs.trigger (fun _ => true) (fun _ => 1) := by
    refine ⟨by rw [f2, if_pos (by simp)], (expandable_iff _ _ _).2 ⟨0, by decide, ?_⟩⟩
    obtain ⟨x, hx⟩ := Option.isSome_iff_exists.1 ((r2.spec.1.ainv.used 0 (generateIndex (fun _ => 1) 0)).2 ⟨by decide, _, hal, rfl⟩)
    exact ⟨x, hx, rfl⟩
  have hset : s3.abs.allocated = s2.abs.allocated := by
    ext bj
    rw [mem_allocated_allocPartialList k.lawful false (fun _ => true) _ s2 r2.spec.1 hm (by simp) s3 hg3]
    refine ⟨?_, Or.inl⟩
    rintro (h | ⟨_, bi, hbi, _, hn⟩)
    · exact h
    · rw [List.mem_singleton] at hbi
      subst hbi
      have h0 : |bj 0 - 1| ≤ 1 := hn 0
      rw [abs_le] at h0
      have : bj 0 = 0 ∨ bj 0 = 1 ∨ bj 0 = 2 := by omega
      have hb' : bj = fun _ => bj 0 := funext fun a => by rw [Subsingleton.elim a 0]
      rw [Abs.mem_allocated, f2]
      rcases this with e | e | e <;> rw [hb', e] <;> simp
  have hsim : Abs.Sim s3.abs s2.abs := (Abs.Sim.refl s2.abs).grow x3 .refl r3.spec.1.ainv r2.spec.1.ainv hset.symm
  refine ⟨s3, s2, r3, r2, (⟨r3.spec.1, r2.spec.1, hsim⟩ : Alike k.lawful false s3 s2).restored, ?_, ?_⟩
  · show s3.abs.flags _ = _
    rw [x2, hfl, if_pos ⟨by simp, htr⟩]
  · show s2.abs.flags _ = _
    rw [f2, if_pos (by simp)]

/-- Non-vacuity of C68: the two maps above end in the same state whatever follows. -/
example (geo : Geo ℚ 1) (exp : Multiset (Pt ℚ 1) → Bool) (ops : List (GridOp ℚ 1)) : ∃ st st' : St (arrayBackend 1) (Multiset (Pt ℚ 1)),
    (st.bundle (fun _ => 1)).map Bundle.expand ≠ (st'.bundle (fun _ => 1)).map Bundle.expand ∧
    Spec.SameOutcome (gridRun geo false exp ops st) (gridRun geo false exp ops st') := by
  obtain ⟨st, st', h1, h2, h3, h4, h5⟩ := sample_flags
  exact ⟨st, st', by rw [h4, h5]; decide, (C68_visible_state (.static (fun _ => 3) (fun _ => 0)) _ _ st st' h1 h2 h3 geo exp ops).1⟩

/-- a one-dimensional map of occupancy counts -/
def unitFlavour : Flavour ℚ 1 Nat Unit where
  sample := fun _ => ()
  mean := fun _ => 0
  amount := fun s => s.card
  checkValid := true
  eraseHits := false
  fallbackDefault := false

/-- rational numbers that are small natural numbers, as eight bytes -/
def ratCodec : Codec ℚ where
  size := 8
  enc := fun x => leBytes 8 x.num.toNat
  dec := fun bs => (ofLeBytes bs : ℚ)
  Ok := fun x => ∃ n : Nat, n < 256 ^ 8 ∧ x = n
  len := fun _ => leBytes_length _ _
  dec_enc := fun x h => by
    obtain ⟨n, h, rfl⟩ := h
    have e : ((n : ℚ).num.toNat) = n := by simp
    rw [e, ofLeBytes_leBytes 8 _ h]

def ratIo : Io ℚ Nat := { pcIo with real := ratCodec }

/-- Non-vacuity for loaded maps: an occupancy map with hits in ten bundles, saved and loaded; expanding all bundles of both gives the same map. -/
example (geo : Geo ℚ 1) (defRay : Pt ℚ 1 → Pt ℚ 1 → List (Idx 1)) : ∃ (st : St (octreeBackend 1) (Occ Nat Unit)) (h : Header ℚ Nat 1), st.bundleIndices ≠ [] ∧
    ∀ (t : SaveTrace 1 none (headerBytes ratIo h) (storeFiles ratIo (occFmt (natCodec 8) unitCodec) ⟨3, 7, st⟩)), ∃ m',
    loadDir ratIo 1 (occFmt (natCodec 8) unitCodec) (rebuildDynamic (fun _ => 0) 0 (fun _ => Occ.new)) (fun _ => true) [1, 0, 1, 0, 1, 0] (runEffs none t.effects) = .loaded m' ∧
    Spec.SameOutcome (occRun unitFlavour geo true defRay (fun _ => true) [.core .expandAll] st) (occRun unitFlavour geo true defRay (fun _ => true) [.core .expandAll] m'.st) := by
  obtain ⟨st, h1, h2, _, h4⟩ := sample_weighted 10 (by decide) (fun _ => 0) 0
  obtain ⟨h, hh⟩ := Option.isSome_iff_exists.1 (C31_header_defined (K := ℚ) (P := Nat) ⟨3, 7, st⟩ h1 (h2 (by decide)))
  refine ⟨st, h, h2 (by decide), fun t => ?_⟩
  obtain ⟨m', y1, y2⟩ := C68_loaded_occupancy (M := Unit) (by decide) ⟨3, 7, st⟩ h1 (h2 (by decide)) ratIo (occFmt (natCodec 8) unitCodec) rfl (by
    refine ⟨?_, ?_, ?_⟩
    · show (3 : Nat) < 256 ^ 24; norm_num
    · exact ⟨7, by norm_num, by norm_num⟩
    · intro c k o ho
      obtain ⟨e1, e2, e3⟩ := h4 c k o ho
      refine ⟨?_, ?_, e2⟩
      · show o.free < 256 ^ 8
        rw [e1]; norm_num
      · show (o.data.getD 0).card < 256 ^ 8
        norm_num; omega) h hh none t (fun _ => true) [1, 0, 1, 0, 1, 0] (fun _ _ => rfl)
    (by intro c hc
        have : c = 0 ∨ c = 1 := by omega
        rcases this with rfl | rfl <;> decide) (fun _ => 0) 0 (fun _ => Occ.new)
  exact ⟨m', y1, (y2 unitFlavour geo defRay (fun _ => true) [.core .expandAll]).1⟩

end Ndt
