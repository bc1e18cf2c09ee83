import Verif.Spec.Session
import Verif.Props.SameFiles
import Verif.Props.OccHistory
import Verif.Proofs.GridmapMore
import Verif.Props.Expand

/-! Property theorems C100: however often a map is saved, loaded, converted, copied and moved between the operations, the result is that of the operations alone. -/

namespace Ndt
open St

theorem Spec.Restored.trans {d : Nat} {B : Backend d} {D : Type} [Inhabited D] {a b c : St B D} (h : Spec.Restored a b) (h' : Spec.Restored b c) : Spec.Restored a c :=
  ⟨fun bi => (h'.bundles bi).trans (h.bundles bi), fun i k => (h'.contents i k).trans (h.contents i k), fun bi i hi => (h'.binContents bi i hi).trans (h.binContents bi i hi),
    h'.minB.trans h.minB, h'.maxB.trans h.maxB⟩

section
variable {d : Nat} {K P D Op : Type} [Inhabited D] {io : Io K P} {F : Fmt D} {conv : D → D → D}
  {run : P → K → List Op → St (octreeBackend d) D → Option (St (octreeBackend d) D)} {m0 : MapObj (octreeBackend d) K P D}

theorem viewC_copyDynamic (st : St (octreeBackend d) D) : (copyDynamic st).viewC = st := by
  unfold copyDynamic Twin.viewC
  simp only [ite_self]

/-- the invariant of sessions -/
theorem session_like (hd : 0 < d) (hF : F.reported = F.codec.size) (hI0 : RInv (octreeLawful d) true m0.st)
    (happ : ∀ p r l l' st, run p r (l ++ l') st = (run p r l st).bind (run p r l')) (hnil : ∀ p r st, run p r [] st = some st)
    (hlike : ∀ p r l st st', Like (octreeLawful d) true st st' → BothOr (Like (octreeLawful d) true) (run p r l st) (run p r l st'))
    (hconv : ∀ l st, run m0.pose m0.resolution l m0.st = some st → ∀ c < 2 ^ d, ∀ i x, st.content c i = some x → conv x default = x ∧ conv x x = x)
    {ops : List Op} {m : MapObj (octreeBackend d) K P D} (hs : Spec.Session io F conv run m0 ops m) :
    m.pose = m0.pose ∧ m.resolution = m0.resolution ∧ ∃ st, run m0.pose m0.resolution ops m0.st = some st ∧ Like (octreeLawful d) true st m.st := by
  induction hs with
  | start => exact ⟨rfl, rfl, m0.st, hnil _ _ _, ⟨⟨hI0, hI0, .refl _⟩, fun _ _ => Iff.rfl⟩⟩
  | work ops ops' m st _ h ih =>
    obtain ⟨e1, e2, s, h1, h2⟩ := ih
    refine ⟨e1, e2, ?_⟩
    have := hlike m0.pose m0.resolution ops' _ _ h2
    rw [e1, e2] at h
    rw [h] at this
    cases hr : run m0.pose m0.resolution ops' s with
    | none => rw [hr] at this; exact this.elim
    | some s' =>
      rw [hr] at this
      exact ⟨s', by rw [happ, h1]; exact hr, this⟩
  | reload ops m m' h old t canOpen sched f f' junk _ hne hp hr hv hh hopen hj hl ih =>
    obtain ⟨e1, e2, s, h1, h2⟩ := ih
    obtain ⟨m'', y1, y2, y3, y4, y5⟩ := load_restores hd m h2.inv' hne io F hF ⟨hp, hr, hv⟩ h hh old t canOpen sched hopen hj f f' junk
    rw [y1] at hl
    cases hl
    exact ⟨y2.trans e1, y3.trans e2, s, h1, like_dynamic h2.inv y5 (h2.restored.trans y4)⟩
  | convert ops m size st1 st2 f f' _ hne h3 h4 ih =>
    obtain ⟨e1, e2, s, h1, h2⟩ := ih
    obtain ⟨size', s1, s2, a1, a2, a3, a4⟩ := convert_back m.st h2.inv' hne conv (fun c hc i x hx => hconv ops s h1 c hc i x (by rw [← h2.restored.contents]; exact hx)) f f'
    rw [a1] at h3
    cases h3
    rw [a2] at h4
    cases h4
    exact ⟨e1, e2, s, h1, like_dynamic h2.inv a4 (h2.restored.trans a3)⟩
  | copy ops m _ ih =>
    rw [viewC_copyDynamic]; exact ih
  | move ops m g g' _ ih =>
    show _ ∧ _ ∧ ∃ st, _ ∧ Like (octreeLawful d) true st (copyDynamic m.st).viewC
    rw [viewC_copyDynamic]; exact ih

/-- what can be done next in a session -/
theorem session_progress (hd : 0 < d) (hF : F.reported = F.codec.size) {st : St (octreeBackend d) D} {m : MapObj (octreeBackend d) K P D} (hl : Like (octreeLawful d) true st m.st)
    (hne : st.bundleIndices ≠ []) (hconv : ∀ c < 2 ^ d, ∀ i x, st.content c i = some x → conv x default = x ∧ conv x x = x) :
    (∀ f f', ∃ size st1 st2, toStatic conv m.st = some (size, st1) ∧ toDynamic f f' conv st1 = some st2) ∧
    ∃ h, dynHeader m = some h ∧ (Storable io F m →
      ∀ old (t : SaveTrace d old (headerBytes io h) (storeFiles io F m)) canOpen sched, (∀ c ∈ sched, canOpen c = true) → (Threads.run canOpen sched).Joined (2 ^ d) → ∀ f f' junk,
        ∃ m', loadDir io d F (rebuildDynamic f f' junk) canOpen sched (runEffs old t.effects) = .loaded m') := by
  have hne' : m.st.bundleIndices ≠ [] := by
    obtain ⟨bi, hbi⟩ := List.exists_mem_of_ne_nil _ hne
    exact List.ne_nil_of_mem ((hl.restored.bundles bi).2 hbi)
  refine ⟨fun f f' => ?_, _, dynHeader_eq hl.inv' hne', ?_⟩
  · obtain ⟨size', s1, s2, a1, a2, _⟩ := convert_back m.st hl.inv' hne' conv (fun c hc i x hx => hconv c hc i x (by rw [← hl.restored.contents]; exact hx)) f f'
    exact ⟨size', s1, s2, a1, a2⟩
  · intro hok old t canOpen sched hopen hj f f' junk
    obtain ⟨m', y1, _⟩ := load_restores hd m hl.inv' hne' io F hF hok _ (dynHeader_eq hl.inv' hne') old t canOpen sched hopen hj f f' junk
    exact ⟨m', y1⟩

end

section
variable {K : Type} [Field K] [LinearOrder K] [FloorRing K] {d : Nat} {P : Type} {io : Io K P}

/-- **C100.** An NDT map is filled by the operations `ops` in any number of stages. In between it is saved and loaded, converted to a static map and back, copied, moved, in any order and any number of times. Then the same
operations, carried out on a new map without any interruption, are defined, and the two maps have the same origin, resolution, bundles, contents and bounds; all samples are the same;
the files to which the two maps are saved are the same; and further operations are defined on both or on neither, with the same results. -/
theorem C100_session (hd : 0 < d) (F : Fmt (Multiset (Pt K d))) (hF : F.reported = F.codec.size) (geo : P → K → Geo K d) (exp : Multiset (Pt K d) → Bool) (pose : P) (r : K) (g : Nat → Nat) (g' : Nat)
    (ops : List (GridOp K d)) (m : MapObj (octreeBackend d) K P (Multiset (Pt K d)))
    (hs : Spec.Session io F convDist (fun p r l => gridRun (geo p r) true exp l) ⟨pose, r, dynInit d _ g g'⟩ ops m) :
    ∃ st, gridRun (geo pose r) true exp ops (dynInit d _ g g') = some st ∧ m.pose = pose ∧ m.resolution = r ∧ Spec.Restored st m.st ∧
      (∀ dens p, sampleNNAt (geo pose r) true dens p m.st = sampleNNAt (geo pose r) true dens p st ∧ sampleBilinearAt (geo pose r) true dens p m.st = sampleBilinearAt (geo pose r) true dens p st) ∧
      dynHeader m = dynHeader ⟨pose, r, st⟩ ∧ storeFiles io F m = storeFiles io F (⟨pose, r, st⟩ : MapObj (octreeBackend d) K P _) ∧
      ∀ ops', Spec.SameOutcome (gridRun (geo pose r) true exp ops' st) (gridRun (geo pose r) true exp ops' m.st) := by
  obtain ⟨e1, e2, st, h1, h2⟩ := session_like (m0 := ⟨pose, r, dynInit d _ g g'⟩) hd hF (Kind.init_rinv (.dynamic g g')) (fun p r l l' st => gridRun_append (geo p r) true exp st l l') (fun _ _ _ => rfl)
    (fun p r l st st' h => h.gridRun (geo p r) exp l) (fun _ _ _ _ _ _ x _ => C38_copies (E := Unit).1 x) hs
  obtain ⟨f1, f2⟩ := dyn_files (⟨pose, r, st⟩ : MapObj (octreeBackend d) K P _) m h2.inv.inv h2.inv'.inv e1 e2 h2.restored io F
  exact ⟨st, h1, e1, e2, h2.restored, fun dens p => ⟨h2.sampleWith .., h2.sampleWith ..⟩, f1.symm, f2.symm, fun ops' => like_outcome (h2.gridRun _ exp ops')⟩

/-- **C100** (interruptions are always possible). At every point of such a session at which the map has a bundle, the conversions are defined, the map can be saved, and every load that follows succeeds. -/
theorem C100_session_continues (hd : 0 < d) (F : Fmt (Multiset (Pt K d))) (hF : F.reported = F.codec.size) (geo : P → K → Geo K d) (exp : Multiset (Pt K d) → Bool) (pose : P) (r : K) (g : Nat → Nat) (g' : Nat)
    (ops : List (GridOp K d)) (m : MapObj (octreeBackend d) K P (Multiset (Pt K d)))
    (hs : Spec.Session io F convDist (fun p r l => gridRun (geo p r) true exp l) ⟨pose, r, dynInit d _ g g'⟩ ops m) (hne : m.st.bundleIndices ≠ []) :
    (∀ f f', ∃ size st1 st2, toStatic convDist m.st = some (size, st1) ∧ toDynamic f f' convDist st1 = some st2) ∧
    ∃ h, dynHeader m = some h ∧ (Storable io F m →
      ∀ old (t : SaveTrace d old (headerBytes io h) (storeFiles io F m)) canOpen sched, (∀ c ∈ sched, canOpen c = true) → (Threads.run canOpen sched).Joined (2 ^ d) → ∀ f f' junk,
        ∃ m', loadDir io d F (rebuildDynamic f f' junk) canOpen sched (runEffs old t.effects) = .loaded m') := by
  obtain ⟨_, _, st, _, h2⟩ := session_like (m0 := ⟨pose, r, dynInit d _ g g'⟩) hd hF (Kind.init_rinv (.dynamic g g')) (fun p r l l' st => gridRun_append (geo p r) true exp st l l') (fun _ _ _ => rfl)
    (fun p r l st st' h => h.gridRun (geo p r) exp l) (fun _ _ _ _ _ _ x _ => C38_copies (E := Unit).1 x) hs
  refine session_progress hd hF h2 ?_ (fun _ _ _ x _ => C38_copies (E := Unit).1 x)
  obtain ⟨bi, hbi⟩ := List.exists_mem_of_ne_nil _ hne
  exact List.ne_nil_of_mem ((h2.restored.bundles bi).1 hbi)

section
variable [IsStrictOrderedRing K]

/-- **C100** for occupancy maps; the operations include ray updates and visibility-based insertion. -/
theorem C100_session_occupancy {M : Type} (hd : 0 < d) (F : Fmt (Occ Nat (Pt K d))) (hF : F.reported = F.codec.size) (geo : P → K → Geo K d) (defRay : Pt K d → Pt K d → List (Idx d))
    (exp : Occ Nat (Pt K d) → Bool) (pose : P) (r : K) (g : Nat → Nat) (g' : Nat) (ops : List (OccMapOp K d Nat (Pt K d))) (m : MapObj (octreeBackend d) K P (Occ Nat (Pt K d)))
    (hs : Spec.Session io F convOcc (fun p r l => occRun (occFlavour K d) (geo p r) true defRay exp l) ⟨pose, r, dynInit d _ g g'⟩ ops m) :
    ∃ st, occRun (occFlavour K d) (geo pose r) true defRay exp ops (dynInit d _ g g') = some st ∧ m.pose = pose ∧ m.resolution = r ∧ Spec.Restored st m.st ∧
      (∀ (dens : Multiset (Pt K d) → Pt K d → K) (occ : M → Occ Nat (Pt K d) → K) p ivm,
        occSampleNNAt (geo pose r) true dens occ p ivm m.st = occSampleNNAt (geo pose r) true dens occ p ivm st ∧
        occSampleBilinearAt (geo pose r) true dens occ p ivm m.st = occSampleBilinearAt (geo pose r) true dens occ p ivm st) ∧
      dynHeader m = dynHeader ⟨pose, r, st⟩ ∧ storeFiles io F m = storeFiles io F (⟨pose, r, st⟩ : MapObj (octreeBackend d) K P _) ∧
      ∀ ops', Spec.SameOutcome (occRun (occFlavour K d) (geo pose r) true defRay exp ops' st) (occRun (occFlavour K d) (geo pose r) true defRay exp ops' m.st) := by
  obtain ⟨e1, e2, st, h1, h2⟩ := session_like (m0 := ⟨pose, r, dynInit d _ g g'⟩) hd hF (Kind.init_rinv (.dynamic g g')) (fun p r l l' st => occRun_append (occFlavour K d) (geo p r) true defRay exp l l' st) (fun _ _ _ => rfl)
    (fun p r l st st' h => h.occRun (occFlavour K d) (geo p r) defRay exp l)
    (fun l st h c hc i x hx => (C38_copies (D := Nat)).2 x (C27_no_empty_distribution (occFlavour K d) (.dynamic g g') (geo pose r) defRay exp l st h c hc i x hx)) hs
  obtain ⟨f1, f2⟩ := dyn_files (⟨pose, r, st⟩ : MapObj (octreeBackend d) K P _) m h2.inv.inv h2.inv'.inv e1 e2 h2.restored io F
  refine ⟨st, h1, e1, e2, h2.restored, fun dens occ p ivm => ?_, f1.symm, f2.symm, fun ops' => like_outcome (h2.occRun _ _ defRay exp ops')⟩
  exact like_occ_samples h2 (occFlavour K d) (geo pose r) defRay exp [] st m.st rfl rfl dens occ p ivm

/-- **C100** (occupancy maps, interruptions are always possible) -/
theorem C100_session_occupancy_continues (hd : 0 < d) (F : Fmt (Occ Nat (Pt K d))) (hF : F.reported = F.codec.size) (geo : P → K → Geo K d) (defRay : Pt K d → Pt K d → List (Idx d))
    (exp : Occ Nat (Pt K d) → Bool) (pose : P) (r : K) (g : Nat → Nat) (g' : Nat) (ops : List (OccMapOp K d Nat (Pt K d))) (m : MapObj (octreeBackend d) K P (Occ Nat (Pt K d)))
    (hs : Spec.Session io F convOcc (fun p r l => occRun (occFlavour K d) (geo p r) true defRay exp l) ⟨pose, r, dynInit d _ g g'⟩ ops m) (hne : m.st.bundleIndices ≠ []) :
    (∀ f f', ∃ size st1 st2, toStatic convOcc m.st = some (size, st1) ∧ toDynamic f f' convOcc st1 = some st2) ∧
    ∃ h, dynHeader m = some h ∧ (Storable io F m →
      ∀ old (t : SaveTrace d old (headerBytes io h) (storeFiles io F m)) canOpen sched, (∀ c ∈ sched, canOpen c = true) → (Threads.run canOpen sched).Joined (2 ^ d) → ∀ f f' junk,
        ∃ m', loadDir io d F (rebuildDynamic f f' junk) canOpen sched (runEffs old t.effects) = .loaded m') := by
  have hc : ∀ l st, occRun (occFlavour K d) (geo pose r) true defRay exp l (dynInit d _ g g') = some st → ∀ c < 2 ^ d, ∀ i x, st.content c i = some x → convOcc x default = x ∧ convOcc x x = x :=
    fun l st h c hc i x hx => (C38_copies (D := Nat)).2 x (C27_no_empty_distribution (occFlavour K d) (.dynamic g g') (geo pose r) defRay exp l st h c hc i x hx)
  obtain ⟨_, _, st, h1, h2⟩ := session_like (m0 := ⟨pose, r, dynInit d _ g g'⟩) hd hF (Kind.init_rinv (.dynamic g g')) (fun p r l l' st => occRun_append (occFlavour K d) (geo p r) true defRay exp l l' st) (fun _ _ _ => rfl)
    (fun p r l st st' h => h.occRun (occFlavour K d) (geo p r) defRay exp l) hc hs
  refine session_progress hd hF h2 ?_ (hc ops st h1)
  obtain ⟨bi, hbi⟩ := List.exists_mem_of_ne_nil _ hne
  exact List.ne_nil_of_mem ((h2.restored.bundles bi).1 hbi)

end
end

/-! ### non-vacuity -/

/-- numbers of copies of the origin, as eight bytes -/
def originCodec : Codec (Multiset (Pt ℚ 1)) where
  size := 8
  enc := fun s => leBytes 8 s.card
  dec := fun bs => Multiset.replicate (ofLeBytes bs) (fun _ => 0)
  Ok := fun s => s.card < 256 ^ 8 ∧ ∀ p ∈ s, p = fun _ => 0
  len := fun _ => leBytes_length _ _
  dec_enc := fun s h => by
    rw [ofLeBytes_leBytes 8 _ h.1]
    exact (Multiset.eq_replicate.2 ⟨rfl, h.2⟩).symm

def originGeo : Geo ℚ 1 := ⟨1, id, fun _ => true⟩

open scoped Classical in
/-- A session: two points are inserted; the map is saved and loaded; all neighbours are allocated; the map is converted to a static map and back; another point is inserted; the map is copied. All this is possible, and in the end
the cell of the origin holds the three points. -/
theorem sample_session : ∃ m : MapObj (octreeBackend 1) ℚ Nat (Multiset (Pt ℚ 1)),
    Spec.Session ratIo (distFmt originCodec) convDist (fun _ _ l => gridRun originGeo true (fun _ => true) l) ⟨3, 7, dynInit 1 _ (fun _ => 5) 9⟩
      [.insert id [fun _ => 0, fun _ => 0], .core .expandAll, .insert id [fun _ => 0]] m ∧ (m.st.content 0 (fun _ => 0)).getD 0 = Multiset.replicate 3 (fun _ => 0) := by
  let ops1 : List (GridOp ℚ 1) := [.insert id [fun _ => 0, fun _ => 0]]
  let ops2 : List (GridOp ℚ 1) := [.core .expandAll]
  let ops3 : List (GridOp ℚ 1) := [.insert id [fun _ => 0]]
  have hb : ∀ (pts : List (Pt ℚ 1)), (∀ p ∈ pts, p = fun _ => 0) → OpWithin originGeo 1 (.insert id pts) := by
    intro pts hp p hpm a
    have hm : p ∈ pts := by
      have := (List.mem_filter.1 hpm).1
      simpa [accList, originGeo] using this
    rw [hp p hm]
    show |toBundleIndex (1 : ℚ) (fun _ => 0) a| ≤ 1
    simp [toBundleIndex]
  have total : ∀ l : List (GridOp ℚ 1), (∀ op ∈ l, op ∈ ops1 ++ ops2 ++ ops3) → expansions l ≤ 100 → ∃ st, gridRun originGeo true (fun _ => true) l (dynInit 1 _ (fun _ => 5) 9) = some st := by
    intro l hl he
    refine C51_dynamic_in_range (fun _ => 5) 9 originGeo (fun _ => true) 1 l ?_ (by omega)
    intro op hop
    have := hl op hop
    simp only [ops1, ops2, ops3, List.cons_append, List.nil_append, List.mem_cons, List.not_mem_nil, or_false] at this
    rcases this with rfl | rfl | rfl
    · exact hb _ (by simp)
    · trivial
    · exact hb _ (by simp)
  let geo : Nat → ℚ → Geo ℚ 1 := fun _ _ => originGeo
  -- the next stage is possible
  have next : ∀ (l l' : List (GridOp ℚ 1)) (m : MapObj (octreeBackend 1) ℚ Nat (Multiset (Pt ℚ 1))),
      Spec.Session ratIo (distFmt originCodec) convDist (fun p r l => gridRun (geo p r) true (fun _ => true) l) ⟨3, 7, dynInit 1 _ (fun _ => 5) 9⟩ l m →
      (∀ op ∈ l ++ l', op ∈ ops1 ++ ops2 ++ ops3) → expansions (l ++ l') ≤ 100 → ∃ st, gridRun originGeo true (fun _ => true) l' m.st = some st := by
    intro l l' m hs h1 h2
    obtain ⟨st, e, _, _, _, _, _, _, hso⟩ := C100_session (by decide) (distFmt originCodec) rfl geo (fun _ => true) 3 7 (fun _ => 5) 9 l m hs
    obtain ⟨s, hs'⟩ := total _ h1 h2
    rw [gridRun_append, e] at hs'
    exact (BothOr.of_some (hso l') hs').imp fun _ h => h.1
  -- the contents of all maps in question
  have cont : ∀ (l : List (GridOp ℚ 1)) (m : MapObj (octreeBackend 1) ℚ Nat (Multiset (Pt ℚ 1))),
      Spec.Session ratIo (distFmt originCodec) convDist (fun p r l => gridRun (geo p r) true (fun _ => true) l) ⟨3, 7, dynInit 1 _ (fun _ => 5) 9⟩ l m →
      ∀ c < 2 ^ 1, ∀ k, (m.st.content c k).getD 0 = (Spec.accepted originGeo (.dynamic (fun _ => 5) 9) l).filter (Spec.InCell 1 c k) := by
    intro l m hs c hc k
    obtain ⟨st, e, _, _, hr, _⟩ := C100_session (by decide) (distFmt originCodec) rfl geo (fun _ => true) 3 7 (fun _ => 5) 9 l m hs
    rw [hr.contents]
    exact C10_contents_exact (.dynamic (fun _ => 5) 9) originGeo (by decide) (fun _ => true) l st e c hc k
  have acc : ∀ pts : List (Pt ℚ 1), Spec.acceptedPoints originGeo (.dynamic (fun _ => 5) 9) id pts = pts := by
    intro pts
    unfold Spec.acceptedPoints
    refine (Multiset.filter_eq_self.2 (fun _ _ => ?_)).trans (by simp [originGeo])
    trivial
  have hin : Spec.InCell (1 : ℚ) 0 (fun _ => 0 : Idx 1) (fun _ => 0) := by
    intro i
    simp [Spec.shift]
  -- first stage
  obtain ⟨st1, r1⟩ := total ops1 (by simp [ops1]) (by simp [ops1, expansions])
  have s1 := Spec.Session.work (io := ratIo) (F := distFmt originCodec) (conv := convDist) (run := fun p r l => gridRun (geo p r) true (fun _ => true) l) [] ops1 ⟨(3 : Nat), (7 : ℚ), dynInit 1 _ (fun _ => 5) 9⟩ st1 .start r1
  have hR1 : MapReachable (.dynamic (fun _ => 5) 9) (fun _ => true) st1 := grid_reachable originGeo (.dynamic (fun _ => 5) 9) _ ops1 _ st1 .init r1
  have hI1 : RInv (octreeLawful 1) true st1 := hR1.spec.1
  have a1 : Spec.accepted originGeo (.dynamic (fun _ => 5) 9) ops1 = Multiset.replicate 2 (fun _ => 0) := by
    show Spec.acceptedPoints _ _ _ _ + 0 = _
    rw [acc]; rfl
  have hne1 : st1.bundleIndices ≠ [] := by
    have h0 := cont _ _ s1 0 (by decide) (fun _ => 0)
    have h0' : (st1.content 0 (fun _ => 0)).getD 0 = Multiset.replicate 2 (fun _ => 0) := by
      refine h0.trans ?_
      show Multiset.filter _ (Spec.accepted originGeo (.dynamic (fun _ => 5) 9) ops1) = _
      rw [a1, Multiset.filter_eq_self.2]
      intro p hp
      rw [Multiset.eq_of_mem_replicate hp]; exact hin
    have hsome : (st1.content 0 (fun _ => 0)).isSome = true := by
      cases h : st1.content 0 (fun _ => 0) with
      | some _ => rfl
      | none => rw [h] at h0'; exact absurd (congrArg Multiset.card h0') (by simp)
    obtain ⟨_, bi, hb, _⟩ := (hI1.ainv.used 0 (fun _ => 0)).1 hsome
    exact List.ne_nil_of_mem ((mem_bundleIndices (octreeLawful 1) st1 hI1.inv bi).2 ((mem_allocated_iff st1 bi).1 hb))
  have hok : Storable ratIo (distFmt originCodec) (⟨3, 7, st1⟩ : MapObj (octreeBackend 1) ℚ Nat (Multiset (Pt ℚ 1))) := by
    refine ⟨?_, ⟨7, by norm_num, by norm_num⟩, ?_⟩
    · show (3 : Nat) < 256 ^ 24; norm_num
    · intro c k x hx
      have hc : c < 2 ^ 1 := ((hI1.ainv.used c k).1 (show (st1.content c k).isSome = true by
        have hx' : st1.content c k = some x := hx
        rw [hx']; rfl)).1
      have h0 := cont _ _ s1 c hc k
      rw [hx] at h0
      have hle : x ≤ Multiset.replicate 2 (fun _ => 0) := by
        have h0' : x = Multiset.filter (Spec.InCell 1 c k) (Spec.accepted originGeo (.dynamic (fun _ => 5) 9) ops1) := h0
        rw [a1] at h0'
        rw [h0']; exact Multiset.filter_le _ _
      refine ⟨lt_of_le_of_lt (Multiset.card_le_card hle) (by norm_num), fun p hp => Multiset.eq_of_mem_replicate (Multiset.mem_of_le hle hp)⟩
  -- saved and loaded
  obtain ⟨_, h, hh, hload⟩ := C100_session_continues (by decide) (distFmt originCodec) rfl geo (fun _ => true) 3 7 (fun _ => 5) 9 _ _ s1 hne1
  have hj : (Threads.run (fun _ => true) [1, 0, 1, 0, 1, 0]).Joined (2 ^ 1) := by
    intro c hc
    have : c = 0 ∨ c = 1 := by omega
    rcases this with rfl | rfl <;> decide
  let t := SaveTrace.inOrder 1 none (headerBytes ratIo h) (storeFiles ratIo (distFmt originCodec) (⟨3, 7, st1⟩ : MapObj (octreeBackend 1) ℚ Nat (Multiset (Pt ℚ 1)))) [] (fun _ _ e => by cases e)
  obtain ⟨m2, hm2⟩ := hload hok none t (fun _ => true) [1, 0, 1, 0, 1, 0] (fun _ _ => rfl) hj (fun _ => 0) 0 (fun _ => 0)
  have s2 := Spec.Session.reload _ _ m2 h none t (fun _ => true) [1, 0, 1, 0, 1, 0] (fun _ => 0) 0 (fun _ => 0) s1 hne1 hok.1 hok.2.1 hok.2.2 hh (fun _ _ => rfl) hj hm2
  -- expanded
  obtain ⟨st3, r3⟩ := next _ ops2 m2 s2 (by simp [ops1, ops2, ops3]) (by simp [ops1, ops2, expansions])
  have s3 := Spec.Session.work _ ops2 m2 st3 s2 r3
  have hne3 : st3.bundleIndices ≠ [] := by
    have h0 := cont _ _ s3 0 (by decide) (fun _ => 0)
    have hI3 : RInv (octreeLawful 1) true st3 := by
      obtain ⟨_, _, st, _, hl⟩ := session_like (m0 := ⟨3, 7, dynInit 1 _ (fun _ => 5) 9⟩) (by decide) rfl (Kind.init_rinv (.dynamic (fun _ => 5) 9))
        (fun p r l l' st => gridRun_append (geo p r) true (fun _ => true) st l l') (fun _ _ _ => rfl) (fun p r l st st' h => h.gridRun (geo p r) (fun _ => true) l)
        (fun _ _ _ _ _ _ x _ => C38_copies (E := Unit).1 x) s3
      exact hl.inv'
    have hsome : (st3.content 0 (fun _ => 0)).isSome = true := by
      cases h : st3.content 0 (fun _ => 0) with
      | some _ => rfl
      | none =>
        have h0' : (st3.content 0 (fun _ => 0)).getD 0 = Multiset.replicate 2 (fun _ => 0) := by
          refine h0.trans ?_
          show Multiset.filter _ (Spec.accepted originGeo (.dynamic (fun _ => 5) 9) ops1) = _
          rw [a1, Multiset.filter_eq_self.2]
          intro p hp
          rw [Multiset.eq_of_mem_replicate hp]; exact hin
        rw [h] at h0'; exact absurd (congrArg Multiset.card h0') (by simp)
    obtain ⟨_, bi, hb, _⟩ := (hI3.ainv.used 0 (fun _ => 0)).1 hsome
    exact List.ne_nil_of_mem ((mem_bundleIndices (octreeLawful 1) st3 hI3.inv bi).2 ((mem_allocated_iff st3 bi).1 hb))
  -- converted
  obtain ⟨size, x1, x2, c1, c2⟩ := (C100_session_continues (by decide) (distFmt originCodec) rfl geo (fun _ => true) 3 7 (fun _ => 5) 9 _ _ s3 hne3).1 (fun _ => 1) 2
  have s4 := Spec.Session.convert _ _ size x1 x2 (fun _ => 1) 2 s3 hne3 c1 c2
  -- the last point
  obtain ⟨st5, r5⟩ := next _ ops3 _ s4 (by simp [ops1, ops2, ops3]) (by simp [ops1, ops2, ops3, expansions])
  have s5 := Spec.Session.work _ ops3 _ st5 s4 r5
  have s6 := Spec.Session.copy _ _ s5
  refine ⟨_, s6, ?_⟩
  refine (cont _ _ s6 0 (by decide) (fun _ => 0)).trans ?_
  have a3 : Spec.accepted originGeo (.dynamic (fun _ => 5) 9) (([] ++ ops1 ++ ops2) ++ ops3) = Multiset.replicate 3 (fun _ => 0) := by
    show Spec.acceptedPoints _ _ _ _ + (Spec.acceptedPoints _ _ _ _ + 0) = _
    rw [acc, acc]; rfl
  rw [a3, Multiset.filter_eq_self.2]
  intro p hp
  rw [Multiset.eq_of_mem_replicate hp]; exact hin

end Ndt
