import Verif.Proofs.WriteThrough
import Verif.Props.Move
import Verif.Props.OccHistory

/-!
Property theorems C20, C84, C86 for occupancy maps (both classes, `fl`; static and dynamic; with visibility-aware insertions), and, for all classes, what operations through the copy of a static map do.
The theorems for NDT maps are in `Props/Copy.lean`, `Props/Lifetime.lean` and `Props/Move.lean`.
-/

namespace Ndt
open St

/-! ### C20 (static maps): operations through the copy change the original -/

section
variable {d : Nat} {D : Type} [Inhabited D]

/-- running operations one after the other -/
def iter {S Op : Type} (f : Op → S → Option S) : List Op → S → Option S
  | [], s => some s
  | op :: l, s => (f op s).bind (iter f l)

theorem writes_through (exp : D → Bool) {Op : Type} (f : Op → St (arrayBackend d) D → Option (St (arrayBackend d) D))
    (hG : ∀ op st st', W (arrayLawful d) st → f op st = some st' → Grow (arrayLawful d) st st')
    (hS : ∀ N op st s st', Sim N st s → W (arrayLawful d) st → f op st = some st' → NoNew st st' → ∃ s', f op s = some s' ∧ Through N st s st' s')
    (size : Fin d → Nat) (lo : Idx d) (st : St (arrayBackend d) D) (hst : MapReachable (.static size lo) exp st) (ops : List Op) (st1 : St (arrayBackend d) D)
    (h : iter f ops st = some st1) (hn : ∀ bi ∈ st1.bundleIndices, bi ∈ st.bundleIndices) :
    ∃ T, (copyStatic st).runWith f (ops.map fun op => (true, op)) = some T ∧
      ∀ c, c < 2 ^ d → ∀ i, T.viewO.content c i = st1.content c i ∧ T.viewC.content c i = st.content c i := by
  have hI : Inv (arrayLawful d) st := hst.spec.1.inv
  obtain ⟨x1, x2, _, x4⟩ := dupStorages_spec st hI.fresh (2 ^ d) st.heap st.next st.storage (le_refl _) (fun _ _ => rfl)
  have grow : ∀ (ops : List Op) (s s' : St (arrayBackend d) D), W (arrayLawful d) s → iter f ops s = some s' → Grow (arrayLawful d) s s' := by
    intro ops
    induction ops with
    | nil => intro s s' hW h; cases h; exact .refl hW
    | cons op l ih =>
      intro s s' hW h
      obtain ⟨t, h1, h2⟩ := Option.bind_eq_some_iff.1 h
      have G := hG op s t hW h1
      exact G.trans (ih t s' G.w h2)
  have key : ∀ (ops : List Op) (A A' : St (arrayBackend d) D) (T : Twin (arrayBackend d) D), Sim st.next A T.viewC → W (arrayLawful d) A → (∀ c, T.shareS c = false) → iter f ops A = some A' →
      NoNew A A' → ∃ T', T.runWith f (ops.map fun op => (true, op)) = some T' ∧ Through st.next A T.viewC A' T'.viewC ∧ T'.viewO.storage = T.viewO.storage := by
    intro ops
    induction ops with
    | nil => intro A A' T hA _ _ h _; cases h; exact ⟨T, rfl, .refl hA, rfl⟩
    | cons op l ih =>
      intro A A' T hA hW hs h hn
      obtain ⟨A1, h1, h2⟩ := Option.bind_eq_some_iff.1 h
      have G := hG op A A1 hW h1
      obtain ⟨n1, n2⟩ := noNew_split G (grow l A1 A' G.w h2) hn
      obtain ⟨s1, a1, a2⟩ := hS _ op A _ A1 hA hW h1 n1
      have hv := viewC_putC T s1
      obtain ⟨T', b1, b2, b3⟩ := ih A1 A' (T.putC s1) (by rw [hv]; exact a2.sim) G.w hs h2 n2
      rw [hv] at b2
      refine ⟨T', ?_, a2.trans b2, b3.trans ?_⟩
      · show ((f op T.viewC).map T.putC).bind _ = _
        rw [a1]; exact b1
      · funext c
        show (if T.shareS c then _ else _) = _
        rw [hs]; rfl
  have hW0 : W (arrayLawful d) st := ⟨fun _ => trivial, hI.fresh, trivial⟩
  have hSim : Sim st.next st (copyStatic st).viewC := by
    refine ⟨rfl, rfl, rfl, fun a ha => x2 a ha, fun bi b c a hb ha => ?_⟩
    obtain ⟨i, _, hi⟩ := hst.bundles_owned bi b c a hb ha
    exact hI.fresh _ _ _ hi
  have hW1 := (grow ops st st1 hW0 h).w
  have hnn : NoNew st st1 := by
    have mem : ∀ (s : St (arrayBackend d) D) (bi : Idx d), bi ∈ s.bundleIndices ↔ (s.bundle bi).isSome = true := by
      intro s bi
      unfold bundleIndices bundle
      constructor
      · intro h
        obtain ⟨e, he, rfl⟩ := List.mem_map.1 h
        rw [((arrayLawful d).mem_traverse _ trivial e.1 e.2).1 he]; rfl
      · intro h
        obtain ⟨b, hb⟩ := Option.isSome_iff_exists.1 h
        exact List.mem_map.2 ⟨(bi, b), ((arrayLawful d).mem_traverse _ trivial bi b).2 hb, rfl⟩
    intro bi hb
    exact (mem st bi).1 (hn bi ((mem st1 bi).2 hb))
  obtain ⟨T, r1, r2, r3⟩ := key ops st st1 (copyStatic st) hSim hW0 (fun _ => rfl) h hnn
  refine ⟨T, r1, fun c hc i => ⟨?_, ?_⟩⟩
  · show ((arrayBackend d).look (T.viewO.storage c) i).map T.heap = ((arrayBackend d).look (st1.storage c) i).map st1.heap
    rw [r3, r2.storage]
    show ((arrayBackend d).look (st.storage c) i).map _ = _
    cases hi : (arrayBackend d).look (st.storage c) i with
    | none => rfl
    | some a => exact congrArg some (r2.sim.heap a (hI.fresh c i a hi))
  · show ((arrayBackend d).look (T.viewC.storage c) i).map T.heap = ((arrayBackend d).look (st.storage c) i).map st.heap
    rw [r2.storage']
    rcases x4 c hc i with ⟨z, z'⟩ | ⟨a, a', z1, z2, z3, z4, z5⟩
    · rw [show (arrayBackend d).look ((copyStatic st).viewC.storage c) i = none from z, show (arrayBackend d).look (st.storage c) i = none from z']; rfl
    · rw [show (arrayBackend d).look ((copyStatic st).viewC.storage c) i = some a' from z1, show (arrayBackend d).look (st.storage c) i = some a from z2]
      exact congrArg some ((r2.heap a' z3).trans z5)

end

section
variable {K : Type} [Field K] [LinearOrder K] [FloorRing K] {d : Nat}

theorem gridRun_iter {B : Backend d} (g : Geo K d) (dyn : Bool) (exp : Multiset (Pt K d) → Bool) : ∀ (ops : List (GridOp K d)) (st : St B (Multiset (Pt K d))),
    iter (gridStep g dyn exp) ops st = gridRun g dyn exp ops st
  | [], _ => rfl
  | op :: l, st => by
    show (gridStep g dyn exp op st).bind _ = (gridStep g dyn exp op st).bind _
    congr 1
    funext s
    exact gridRun_iter g dyn exp l s

/-- **C20 (refuted, static NDT maps, any operations).** As long as operations need no new bundles, everything that is done through the copy happens to the original instead: afterwards the original contains what the same
operations would have made of it, and the distributions of the copy are what they were when it was made. -/
theorem C20_static_writes_through_refuted (g : Geo K d) (exp : Multiset (Pt K d) → Bool) (size : Fin d → Nat) (lo : Idx d) (st : St (arrayBackend d) (Multiset (Pt K d)))
    (hst : Reachable (.static size lo) g exp st) (ops : List (GridOp K d)) (st1 : St (arrayBackend d) (Multiset (Pt K d))) (h : gridRun g false exp ops st = some st1)
    (hn : ∀ bi ∈ st1.bundleIndices, bi ∈ st.bundleIndices) :
    ∃ T, (copyStatic st).run g false exp (ops.map fun op => (true, op)) = some T ∧
      ∀ c, c < 2 ^ d → ∀ i, T.viewO.content c i = st1.content c i ∧ T.viewC.content c i = st.content c i :=
  writes_through exp (gridStep g false exp) (fun op st st' hW h => grow_gridStep _ g false exp op st st' hW h) (fun N op st s st' hS hW h hn => sim_gridStep _ N g false exp op st s st' hS hW h hn)
    size lo st (grid_reachable g (.static size lo) exp _ _ st .init hst.choose_spec) ops st1 ((gridRun_iter g false exp ops st).trans h) hn

end

/-! ### occupancy maps -/

section
variable {K : Type} [Field K] [LinearOrder K] [FloorRing K] {d : Nat} {W E : Type} [AddCommMonoid W]

theorem OccReachable.map {k : Kind d} {fl : Flavour K d W E} {g : Geo K d} {defRay : Pt K d → Pt K d → List (Idx d)} {exp : Occ W E → Bool} {st : St k.backend (Occ W E)}
    (h : OccReachable fl k g defRay exp st) : MapReachable k exp st := by
  obtain ⟨ops, h⟩ := h
  exact occ_reachable fl g k defRay exp ops _ st .init h

theorem occRun_iter {B : Backend d} (fl : Flavour K d W E) (g : Geo K d) (dyn : Bool) (defRay : Pt K d → Pt K d → List (Idx d)) (exp : Occ W E → Bool) : ∀ (ops : List (OccMapOp K d W E))
    (st : St B (Occ W E)), iter (occStep fl g dyn defRay exp) ops st = occRun fl g dyn defRay exp ops st
  | [], _ => rfl
  | op :: l, st => by
    show (occStep fl g dyn defRay exp op st).bind _ = (occStep fl g dyn defRay exp op st).bind _
    congr 1
    funext s
    exact occRun_iter fl g dyn defRay exp l s

/-- **C20 (refuted, static occupancy maps).** As long as operations need no new bundles, everything that is done through the copy happens to the original instead. -/
theorem C20_occupancy_writes_through_refuted (fl : Flavour K d W E) (g : Geo K d) (defRay : Pt K d → Pt K d → List (Idx d)) (exp : Occ W E → Bool) (size : Fin d → Nat) (lo : Idx d)
    (st : St (arrayBackend d) (Occ W E)) (hst : OccReachable fl (.static size lo) g defRay exp st) (ops : List (OccMapOp K d W E)) (st1 : St (arrayBackend d) (Occ W E))
    (h : occRun fl g false defRay exp ops st = some st1) (hn : ∀ bi ∈ st1.bundleIndices, bi ∈ st.bundleIndices) :
    ∃ T, (copyStatic st).runWith (occStep fl g false defRay exp) (ops.map fun op => (true, op)) = some T ∧
      ∀ c, c < 2 ^ d → ∀ i, T.viewO.content c i = st1.content c i ∧ T.viewC.content c i = st.content c i :=
  writes_through exp (occStep fl g false defRay exp) (fun op st st' hW h => grow_occStep _ fl g false defRay exp op st st' hW h)
    (fun N op st s st' hS hW h hn => sim_occStep _ N fl g false defRay exp op st s st' hS hW h hn) size lo st hst.map ops st1 ((occRun_iter fl g false defRay exp ops st).trans h) hn

/-- **C20 (refuted, dynamic occupancy maps).** The copy of a dynamic map with at least one bundle never becomes independent: after any history of operations on the two objects, both
have the same bundles and the same contents. -/
theorem C20_occupancy_aliases_refuted (fl : Flavour K d W E) (g : Geo K d) (defRay : Pt K d → Pt K d → List (Idx d)) (exp : Occ W E → Bool) (gs : Nat → Nat) (gb : Nat)
    (st : St (octreeBackend d) (Occ W E)) (hst : OccReachable fl (.dynamic gs gb) g defRay exp st) (hne : st.bundleIndices ≠ []) (hist : List (Bool × OccMapOp K d W E))
    (T : Twin (octreeBackend d) (Occ W E)) (h : (copyDynamic st).runWith (occStep fl g true defRay exp) hist = some T) :
    (∀ c, c < 2 ^ d → ∀ i, T.viewO.content c i = T.viewC.content c i) ∧ (∀ bi, T.viewO.bundle bi = T.viewC.bundle bi) :=
  copy_aliases _ st hst.map.spec.1.inv hne hist T h

/-- **C20 (partial, occupancy maps).** The copy of a *newly constructed* map is independent of the original: after any history on both objects, an operation on one of them leaves the
other unchanged. Missing w.r.t. C20: copies of maps that contain bundles (see the refutations). -/
theorem C20_occupancy_copy_of_new_partial (k : Kind d) (fl : Flavour K d W E) (g : Geo K d) (defRay : Pt K d → Pt K d → List (Idx d)) (exp : Occ W E → Bool) (hist : List (Bool × OccMapOp K d W E))
    (T T' : Twin k.backend (Occ W E)) (h : (copyNew (Occ W E) k).runWith (occStep fl g k.dyn defRay exp) hist = some T) (op : OccMapOp K d W E) :
    (T.stepWith (occStep fl g k.dyn defRay exp) (true, op) = some T' → SameMap T'.viewO T.viewO) ∧ (T.stepWith (occStep fl g k.dyn defRay exp) (false, op) = some T' → SameMap T'.viewC T.viewC) := by
  have hf : ∀ op st st', RInv k.lawful k.dyn st → occStep fl g k.dyn defRay exp op st = some st' → Frame st st' ∧ RInv k.lawful k.dyn st' := fun op st st' hI h =>
    frame_occStep k.lawful fl g k.dyn defRay exp op st st' hI h
  have hA := apart_copy_empty k _ hf hist T h
  exact ⟨fun hs => SameMap.of_abs ((apart_step k.lawful k.dyn _ hf (true, op) T T' hA hs).2.1 rfl).1, fun hs => SameMap.of_abs ((apart_step k.lawful k.dyn _ hf (false, op) T T' hA hs).2.2 rfl).1⟩

/-- **C84 (refuted, static occupancy maps).** After any history of operations on a map and its copy, every bin of every bundle that existed when the copy was made could be read through the copy before the destruction of the
original, and refers to a released object afterwards. -/
theorem C84_occupancy_dangling_refuted (fl : Flavour K d W E) (g : Geo K d) (defRay : Pt K d → Pt K d → List (Idx d)) (exp : Occ W E → Bool) (size : Fin d → Nat) (lo : Idx d)
    (st : St (arrayBackend d) (Occ W E)) (hst : OccReachable fl (.static size lo) g defRay exp st) (hist : List (Bool × OccMapOp K d W E)) (T : Twin (arrayBackend d) (Occ W E))
    (h : (copyStatic st).runWith (occStep fl g false defRay exp) hist = some T) (bi : Idx d) (hbi : bi ∈ st.bundleIndices) (c : Nat) (hc : c < 2 ^ d) :
    (T.viewC.readBin [] bi c).isSome = true ∧ T.viewC.readBin (released (.static size lo) T.viewO.storage) bi c = none :=
  copy_dangling exp _ (fun op st st' hW h => grow_occStep _ fl g false defRay exp op st st' hW h) size lo st hst.map hist T h bi hbi c hc

/-- **C84** (part, static occupancy maps). All other reads stay what they were. Missing with respect to C84: the bundles of the refutation. -/
theorem C84_occupancy_others_survive_partial (fl : Flavour K d W E) (g : Geo K d) (defRay : Pt K d → Pt K d → List (Idx d)) (exp : Occ W E → Bool) (size : Fin d → Nat) (lo : Idx d)
    (st : St (arrayBackend d) (Occ W E)) (hst : OccReachable fl (.static size lo) g defRay exp st) (hist : List (Bool × OccMapOp K d W E)) (T : Twin (arrayBackend d) (Occ W E))
    (h : (copyStatic st).runWith (occStep fl g false defRay exp) hist = some T) (bi : Idx d) (c : Nat) :
    T.viewO.readBin (released (.static size lo) T.viewC.storage) bi c = T.viewO.readBin [] bi c ∧
    (bi ∉ st.bundleIndices → T.viewC.readBin (released (.static size lo) T.viewO.storage) bi c = T.viewC.readBin [] bi c) :=
  others_survive exp _ (fun op st st' hW h => grow_occStep _ fl g false defRay exp op st st' hW h) size lo st hst.map hist T h bi c

/-- **C84** (part, release). Destroying a static occupancy map releases exactly the distribution objects it has allocated during its life. -/
theorem C84_occupancy_released_partial (fl : Flavour K d W E) (g : Geo K d) (defRay : Pt K d → Pt K d → List (Idx d)) (exp : Occ W E → Bool) (size : Fin d → Nat) (lo : Idx d)
    (st : St (arrayBackend d) (Occ W E)) (hst : OccReachable fl (.static size lo) g defRay exp st) (a : Nat) : a ∈ released (.static size lo) st.storage ↔ a < st.next :=
  hst.map.all_owned a

/-- **C84 (refuted, release).** Destroying a dynamic occupancy map releases none of its distribution objects. -/
theorem C84_occupancy_leak_refuted (fl : Flavour K d W E) (g : Geo K d) (defRay : Pt K d → Pt K d → List (Idx d)) (exp : Occ W E → Bool) (gs : Nat → Nat) (gb : Nat)
    (st : St (octreeBackend d) (Occ W E)) (hst : OccReachable fl (.dynamic gs gb) g defRay exp st) (bi : Idx d) (hbi : bi ∈ st.bundleIndices) (c : Nat) (hc : c < 2 ^ d) :
    ∃ a, ((st.bundle bi).bind fun b => b.data c) = some a ∧ a ∈ ownedObjects (octreeBackend d) st.storage ∧ a ∉ released (.dynamic gs gb) st.storage := by
  have hI : Inv (octreeLawful d) st := hst.map.spec.1.inv
  obtain ⟨b, hb⟩ := Option.isSome_iff_exists.1 ((mem_bundleIndices _ st hI bi).1 hbi)
  obtain ⟨a, ha, hk⟩ := hI.complete bi b hb c hc
  exact ⟨a, by rw [hb]; exact ha, (mem_owned (octreeLawful d) st hI.store a).2 ⟨c, _, hc, hk⟩, List.not_mem_nil⟩

/-- **C86 (refuted, static occupancy maps).** Moving a static map and destroying the source leaves a map that must not be read, whatever was done with the new map in between. -/
theorem C86_occupancy_static_move_refuted (fl : Flavour K d W E) (g : Geo K d) (defRay : Pt K d → Pt K d → List (Idx d)) (exp : Occ W E → Bool) (size : Fin d → Nat) (lo : Idx d)
    (st : St (arrayBackend d) (Occ W E)) (hst : OccReachable fl (.static size lo) g defRay exp st) (ops : List (OccMapOp K d W E)) (T : Twin (arrayBackend d) (Occ W E))
    (h : (moveMap (.static size lo) st).runWith (occStep fl g false defRay exp) (ops.map fun op => (true, op)) = some T) (bi : Idx d) (hbi : bi ∈ st.bundleIndices) (c : Nat) (hc : c < 2 ^ d) :
    (T.viewC.readBin [] bi c).isSome = true ∧ T.viewC.readBin (released (.static size lo) T.viewO.storage) bi c = none :=
  C84_occupancy_dangling_refuted fl g defRay exp size lo st hst _ T h bi hbi c hc

/-- **C86** (part, dynamic occupancy maps). Moving a dynamic map and destroying the source leaves a map that reads as the source did before, and it behaves like the source from then on. -/
theorem C86_occupancy_dynamic_move_partial (fl : Flavour K d W E) (g : Geo K d) (defRay : Pt K d → Pt K d → List (Idx d)) (exp : Occ W E → Bool) (gs : Nat → Nat) (gb : Nat)
    (st : St (octreeBackend d) (Occ W E)) (ops : List (OccMapOp K d W E)) :
    ((moveMap (.dynamic gs gb) st).runWith (occStep fl g true defRay exp) (ops.map fun op => (true, op))).map Twin.viewC = occRun fl g true defRay exp ops st ∧
    ∀ T, (moveMap (.dynamic gs gb) st).runWith (occStep fl g true defRay exp) (ops.map fun op => (true, op)) = some T → ∀ bi c,
      T.viewC.readBin (released (.dynamic gs gb) T.viewO.storage) bi c = T.viewC.readBin [] bi c := by
  refine ⟨?_, fun T _ bi c => rfl⟩
  have key : ∀ (ops : List (OccMapOp K d W E)) (T : Twin (octreeBackend d) (Occ W E)),
      (T.runWith (occStep fl g true defRay exp) (ops.map fun op => (true, op))).map Twin.viewC = occRun fl g true defRay exp ops T.viewC := by
    intro ops
    induction ops with
    | nil => intro T; rfl
    | cons op l ih =>
      intro T
      show (((occStep fl g true defRay exp op T.viewC).map T.putC).bind _).map _ = (occStep fl g true defRay exp op T.viewC).bind _
      cases hs : occStep fl g true defRay exp op T.viewC with
      | none => rfl
      | some s =>
        show ((T.putC s).runWith _ (l.map fun op => (true, op))).map Twin.viewC = _
        rw [ih (T.putC s), viewC_putC]
        rfl
  refine (key ops _).trans ?_
  rw [show (moveMap (.dynamic gs gb) st).viewC = st from (C20_copy_equal_dynamic_partial st).2]

/-- **C86 (refuted, dynamic occupancy maps).** The source of a move is not emptied: it keeps showing, and changing, the contents of the new map. -/
theorem C86_occupancy_alias_refuted (fl : Flavour K d W E) (g : Geo K d) (defRay : Pt K d → Pt K d → List (Idx d)) (exp : Occ W E → Bool) (gs : Nat → Nat) (gb : Nat)
    (st : St (octreeBackend d) (Occ W E)) (hst : OccReachable fl (.dynamic gs gb) g defRay exp st) (hne : st.bundleIndices ≠ []) (hist : List (Bool × OccMapOp K d W E))
    (T : Twin (octreeBackend d) (Occ W E)) (h : (moveMap (.dynamic gs gb) st).runWith (occStep fl g true defRay exp) hist = some T) :
    (∀ c, c < 2 ^ d → ∀ i, T.viewC.content c i = T.viewO.content c i) ∧ ∀ bi, T.viewC.bundle bi = T.viewO.bundle bi := by
  obtain ⟨h1, h2⟩ := C20_occupancy_aliases_refuted fl g defRay exp gs gb st hst hne hist T h
  exact ⟨fun c hc i => (h1 c hc i).symm, fun bi => (h2 bi).symm⟩

end

/-! ### Non-vacuity -/

/-- one hit at 5/4 (bundle 2), seen through the bundles 0 and 1 -/
def copyScan : Scan ℚ 1 Nat := { pose := id, cloud := [![5/4]], ray := fun _ _ => [![0], ![1]], order := id, order_perm := fun l => List.Perm.refl l }

/-- a static occupancy map with the bundles 0, 1, 2 -/
def occLife : Option (St (arrayBackend 1) (Occ Nat (Pt ℚ 1))) :=
  occRun (occFlavour ℚ 1) oneGeo false (fun _ _ => []) (fun _ => true) [.insert copyScan] ((Kind.static ![2] ![0]).init _)

/-- the same map after two more operations -/
def occLife1 : Option (St (arrayBackend 1) (Occ Nat (Pt ℚ 1))) :=
  occLife.bind (occRun (occFlavour ℚ 1) oneGeo false (fun _ _ => []) (fun _ => true) [.insert copyScan, .core .expandAll])

/-- the map and its copy, when the two operations are done through the copy, and a third one on the original -/
def occLifeTwin : Option (Twin (arrayBackend 1) (Occ Nat (Pt ℚ 1))) :=
  occLife.bind fun st => (copyStatic st).runWith (occStep (occFlavour ℚ 1) oneGeo false (fun _ _ => []) (fun _ => true)) [(true, .insert copyScan), (false, .core .expandAll)]

theorem occLife_runs : occLife.isSome = true := by decide +kernel
theorem occLife1_runs : occLife1.isSome = true := by decide +kernel
theorem occLifeTwin_runs : occLifeTwin.isSome = true := by decide +kernel

/-- A reachable static occupancy map and operations that need no new bundles, but change it: the hypotheses of `C20_occupancy_writes_through_refuted`. -/
example : ∃ st st1, OccReachable (occFlavour ℚ 1) (.static ![2] ![0]) oneGeo (fun _ _ => []) (fun _ => true) st ∧
    occRun (occFlavour ℚ 1) oneGeo false (fun _ _ => []) (fun _ => true) [.insert copyScan, .core .expandAll] st = some st1 ∧ (∀ bi ∈ st1.bundleIndices, bi ∈ st.bundleIndices) ∧
    (st.content 0 ![0]).map Occ.free = some 2 ∧ (st1.content 0 ![0]).map Occ.free = some 4 := by
  refine ⟨occLife.get occLife_runs, occLife1.get occLife1_runs, ⟨[.insert copyScan], (Option.some_get occLife_runs).symm⟩, ?_, by decide +kernel, by decide +kernel, by decide +kernel⟩
  rw [Option.some_get]
  unfold occLife1
  conv_rhs => rw [← Option.some_get occLife_runs]
  rfl

/-- The map, its copy and a history on both; reading a bundle of the copy after the destruction of the original: the hypotheses of the theorems on C84 and C86. -/
example : ∃ st T, OccReachable (occFlavour ℚ 1) (.static ![2] ![0]) oneGeo (fun _ _ => []) (fun _ => true) st ∧ (![2] : Idx 1) ∈ st.bundleIndices ∧
    (copyStatic st).runWith (occStep (occFlavour ℚ 1) oneGeo false (fun _ _ => []) (fun _ => true)) [(true, .insert copyScan), (false, .core .expandAll)] = some T ∧
    ((T.viewC.readBin [] ![2] 0).bind Occ.data) = some {![5/4], ![5/4]} := by
  refine ⟨occLife.get occLife_runs, occLifeTwin.get occLifeTwin_runs, ⟨[.insert copyScan], (Option.some_get occLife_runs).symm⟩, by decide +kernel, ?_, by decide +kernel⟩
  rw [Option.some_get]
  unfold occLifeTwin
  conv_rhs => rw [← Option.some_get occLife_runs]
  rfl

/-- a dynamic occupancy map with the bundles 0, 1, 2 -/
def occDyn : Option (St (octreeBackend 1) (Occ Nat (Pt ℚ 1))) :=
  occRun (occFlavour ℚ 1) oneGeo true (fun _ _ => []) (fun _ => true) [.insert copyScan] ((Kind.dynamic (fun n => n + 8) 16).init _)

def occDynTwin : Option (Twin (octreeBackend 1) (Occ Nat (Pt ℚ 1))) :=
  occDyn.bind fun st => (copyDynamic st).runWith (occStep (occFlavour ℚ 1) oneGeo true (fun _ _ => []) (fun _ => true)) [(true, .insert copyScan)]

theorem occDyn_runs : occDyn.isSome = true := by decide +kernel
theorem occDynTwin_runs : occDynTwin.isSome = true := by decide +kernel

/-- A reachable dynamic occupancy map and its copy; the scan that is inserted into the copy appears in the original. -/
example : ∃ st T, OccReachable (occFlavour ℚ 1) (.dynamic (fun n => n + 8) 16) oneGeo (fun _ _ => []) (fun _ => true) st ∧ st.bundleIndices ≠ [] ∧
    (copyDynamic st).runWith (occStep (occFlavour ℚ 1) oneGeo true (fun _ _ => []) (fun _ => true)) [(true, .insert copyScan)] = some T ∧
    (st.content 0 ![0]).map Occ.free = some 2 ∧ (T.viewO.content 0 ![0]).map Occ.free = some 4 := by
  refine ⟨occDyn.get occDyn_runs, occDynTwin.get occDynTwin_runs, ⟨[.insert copyScan], (Option.some_get occDyn_runs).symm⟩, by decide +kernel, ?_, by decide +kernel, by decide +kernel⟩
  rw [Option.some_get]
  unfold occDynTwin
  conv_rhs => rw [← Option.some_get occDyn_runs]
  rfl

/-- a static NDT map with a point, and the same map after a second point -/
def ndtLife : Option (St (arrayBackend 1) (Multiset (Pt ℚ 1))) := gridRun oneGeo false oneExp [.insert id [![1/2]]] ((Kind.static ![2] ![0]).init _)
def ndtLife1 : Option (St (arrayBackend 1) (Multiset (Pt ℚ 1))) := ndtLife.bind (gridRun oneGeo false oneExp [.insert id [![2/3]]])

theorem ndtLife_runs : ndtLife.isSome = true := by decide +kernel
theorem ndtLife1_runs : ndtLife1.isSome = true := by decide +kernel

/-- The hypotheses of `C20_static_writes_through_refuted`. -/
example : ∃ st st1, Reachable (.static ![2] ![0]) oneGeo oneExp st ∧ gridRun oneGeo false oneExp [.insert id [![2/3]]] st = some st1 ∧ (∀ bi ∈ st1.bundleIndices, bi ∈ st.bundleIndices) ∧
    st.content 0 ![0] = some {![1/2]} ∧ st1.content 0 ![0] = some {![1/2], ![2/3]} := by
  refine ⟨ndtLife.get ndtLife_runs, ndtLife1.get ndtLife1_runs, ⟨[.insert id [![1/2]]], (Option.some_get ndtLife_runs).symm⟩, ?_, by decide +kernel, by decide +kernel, by decide +kernel⟩
  rw [Option.some_get]
  unfold ndtLife1
  conv_rhs => rw [← Option.some_get ndtLife_runs]
  rfl

end Ndt
