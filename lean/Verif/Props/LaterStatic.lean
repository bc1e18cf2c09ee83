import Verif.Proofs.SimulateSub
import Verif.Props.Later
import Verif.Props.SameExports

/-! Property theorems C68 and C98 for static maps that were saved and loaded: later histories have the same results as on the original, except that the loaded map
of an odd minimum index cannot hold the last accepted row of bundles (see C33). -/

namespace Ndt
open St

/-! ### bundles created by a history are accepted bundles -/

section
variable {d : Nat} {B : Backend d} {L : B.Lawful} {dyn : Bool}

theorem updateList_valid {D : Type} [Inhabited D] (l : List (Idx d × (D → D))) (st s : St B D) (hI : RInv L dyn st) (hl : ∀ e ∈ l, st.valid dyn e.1 = true) (h : St.updateList dyn l st = some s) :
    ∀ bj ∈ s.abs.allocated, bj ∈ st.abs.allocated ∨ st.abs.valid dyn bj = true := by
  intro bj hb
  rw [(RInv.upds l st s hI h).2.1] at hb
  rcases allocated_upds dyn l _ bj hb with h | ⟨e, h1, h2⟩
  · exact Or.inl h
  · exact Or.inr (by rw [← h2]; exact hl e h1)

variable {K : Type} [Field K] [LinearOrder K] [FloorRing K]

theorem gridRun_valid (L : B.Lawful) (g : Geo K d) (exp : Multiset (Pt K d) → Bool) : ∀ (ops : List (GridOp K d)) (st s : St B (Multiset (Pt K d))), RInv L dyn st → gridRun g dyn exp ops st = some s →
    ∀ bj ∈ s.abs.allocated, bj ∈ st.abs.allocated ∨ st.abs.valid dyn bj = true
  | [], st, s, _, h => by cases h; exact fun _ => Or.inl
  | op :: ops, st, s, hI, h => by
    obtain ⟨s1, h1, h2⟩ := Option.bind_eq_some_iff.1 h
    obtain ⟨i1, k1⟩ := gridStep_keeps (L := L) g exp op st s1 hI h1
    have hs : ∀ bj ∈ s1.abs.allocated, bj ∈ st.abs.allocated ∨ st.abs.valid dyn bj = true := by
      cases op with
      | insert pose cloud =>
        refine updateList_valid _ st s1 hI ?_ h1
        intro e he
        obtain ⟨y, hy, rfl⟩ := List.mem_map.1 he
        obtain ⟨p, hp, hx⟩ := (mem_collect_keys g (st.valid dyn) pose cloud y.1).1 (List.mem_map.2 ⟨y, hy, rfl⟩)
        rw [← hx]; exact (List.mem_filter.1 hp).2
      | core op => exact coreStep_valid L dyn exp op st s1 hI h1
    intro bj hb
    rcases gridRun_valid L g exp ops s1 s i1 h2 bj hb with h | h
    · exact hs bj h
    · exact Or.inr (by rw [← k1.valid]; exact h)

variable {W E : Type} [AddCommMonoid W]

theorem occRun_valid (L : B.Lawful) (fl : Flavour K d W E) (g : Geo K d) (defRay : Pt K d → Pt K d → List (Idx d)) (exp : Occ W E → Bool) :
    ∀ (ops : List (OccMapOp K d W E)) (st s : St B (Occ W E)), RInv L dyn st → occRun fl g dyn defRay exp ops st = some s →
    ∀ bj ∈ s.abs.allocated, bj ∈ st.abs.allocated ∨ st.abs.valid dyn bj = true
  | [], st, s, _, h => by cases h; exact fun _ => Or.inl
  | op :: ops, st, s, hI, h => by
    obtain ⟨s1, h1, h2⟩ := Option.bind_eq_some_iff.1 h
    obtain ⟨i1, k1⟩ := occStep_inv L fl g dyn defRay exp op st s1 hI h1
    have hadd : ∀ l : List (Idx d × Occ W E), (∀ e ∈ l, st.valid dyn e.1 = true) → occAdd dyn l st = some s1 → ∀ bj ∈ s1.abs.allocated, bj ∈ st.abs.allocated ∨ st.abs.valid dyn bj = true := by
      intro l hl h
      refine updateList_valid _ st s1 hI ?_ h
      intro e he
      obtain ⟨y, hy, rfl⟩ := List.mem_map.1 he
      exact hl y hy
    have hins : ∀ sc, occInsert fl g dyn sc st = some s1 → ∀ bj ∈ s1.abs.allocated, bj ∈ st.abs.allocated ∨ st.abs.valid dyn bj = true := by
      intro sc h
      rw [occInsert_eq L fl g dyn sc st hI] at h
      exact hadd _ (insertEffects_valid fl g _ sc) h
    have hs : ∀ bj ∈ s1.abs.allocated, bj ∈ st.abs.allocated ∨ st.abs.valid dyn bj = true := by
      cases op with
      | insert sc => exact hins sc h1
      | core op => exact coreStep_valid L dyn exp op st s1 hI h1
      | insertVisible sc occ vm =>
        cases occ with
        | none => exact hins _ h1
        | some occ =>
          cases vm with
          | none => exact hins _ h1
          | some vm =>
            obtain ⟨hs, hsub, h | h⟩ := occInsertVisible_spec L fl g dyn defRay sc occ vm st s1 hI h1
            · refine hadd _ ?_ h
              intro e he
              obtain ⟨y, hy, rfl⟩ := List.mem_map.1 he
              exact occCollect_valid fl g (st.valid dyn) sc.pose sc.cloud y (hsub.subset hy)
            · refine hadd _ ?_ h
              intro e he
              rcases List.mem_append.1 he with he | he
              · obtain ⟨y, hy, rfl⟩ := List.mem_map.1 he
                exact occCollect_valid fl g (st.valid dyn) sc.pose sc.cloud y (hsub.subset hy)
              · obtain ⟨y, hy, rfl⟩ := List.mem_map.1 he
                exact insertFree_valid fl g (st.valid dyn) true sc y hy
    intro bj hb
    rcases occRun_valid L fl g defRay exp ops s1 s i1 h2 bj hb with h | h
    · exact hs bj h
    · exact Or.inr (by rw [← k1.valid]; exact h)

end

/-! ### the arrays of the original and of the loaded map -/

section
variable {d : Nat} {D : Type} [Inhabited D] {size : Fin d → Nat} {lo : Idx d} {exp : D → Bool} {st st' : St (arrayBackend d) D}

/-- the arrays of a loaded map lie inside those of the original -/
theorem loaded_arrays_good (hR : MapReachable (.static size lo) exp st)
    (hB : ∀ bi, (arrayBackend d).ok st'.bundles bi = (arrayBackend d).ok (Arr.fresh (V := Bundle) (fun a => size a * 2) lo) bi)
    (hD : ∀ c k, (arrayBackend d).ok (st'.storage c) k = (arrayBackend d).ok (Arr.fresh (V := Nat) (fun a => size a + (if 1 < c then 1 else 0)) (fun a => lo a / 2)) k) (bi : Idx d) (h : st'.abs.Good bi) :
    st.abs.Good bi := by
  rw [hR.spec.2.good]
  refine ⟨(hB bi).symm.trans h.1, fun c hc => ?_⟩
  have h2 : (arrayBackend d).ok (st'.storage c) (generateIndex bi c) = true := h.2 c hc
  rw [hD] at h2
  have h3 : Arr.InBox (V := Nat) _ _ := of_decide_eq_true h2
  show decide (Arr.InBox (V := Nat) (if c = 0 then Arr.fresh size (fun a => lo a / 2) else Arr.fresh (fun a => size a + 1) (fun a => lo a / 2)) (generateIndex bi c)) = true
  refine decide_eq_true fun a => ?_
  have h4 : lo a / 2 ≤ generateIndex bi c a ∧ generateIndex bi c a < lo a / 2 + ((size a + (if 1 < c then 1 else 0) : Nat) : Int) := h3 a
  split
  · rename_i h0
    subst h0
    rw [if_neg (by omega)] at h4
    exact h4
  · show lo a / 2 ≤ _ ∧ _ < lo a / 2 + ((size a + 1 : Nat) : Int)
    refine ⟨h4.1, lt_of_lt_of_le h4.2 ?_⟩
    split <;> push_cast <;> omega

theorem loaded_bundles_ok (hR : MapReachable (.static size lo) exp st)
    (hB : ∀ bi, (arrayBackend d).ok st'.bundles bi = (arrayBackend d).ok (Arr.fresh (V := Bundle) (fun a => size a * 2) lo) bi) (bi : Idx d) :
    (arrayBackend d).ok st'.bundles bi = (arrayBackend d).ok st.bundles bi := by
  rw [hB]
  have := congrFun hR.spec.2.okB bi
  exact this.symm

/-- the accepted bundles that the arrays of a loaded map hold -/
theorem loaded_good_iff (hd : 0 < d) (hB : ∀ bi, (arrayBackend d).ok st'.bundles bi = (arrayBackend d).ok (Arr.fresh (V := Bundle) (fun a => size a * 2) lo) bi)
    (hD : ∀ c k, (arrayBackend d).ok (st'.storage c) k = (arrayBackend d).ok (Arr.fresh (V := Nat) (fun a => size a + (if 1 < c then 1 else 0)) (fun a => lo a / 2)) k) (bi : Idx d)
    (hb : ∀ a, lo a ≤ bi a ∧ bi a < lo a + 2 * (size a : Int) - 1) :
    st'.abs.Good bi ↔ (lo ⟨0, hd⟩ % 2 = 0 ∨ bi ⟨0, hd⟩ ≠ lo ⟨0, hd⟩ + 2 * (size ⟨0, hd⟩ : Int) - 2) := by
  rw [← static_fresh_ok hd bi hb]
  constructor
  · intro h c hc
    have := h.2 c hc
    rw [← hD]; exact this
  · intro h
    refine ⟨?_, fun c hc => ?_⟩
    · show (arrayBackend d).ok st'.bundles bi = true
      rw [hB]
      refine decide_eq_true fun a => ?_
      have := hb a
      show lo a ≤ bi a ∧ bi a < lo a + ((size a * 2 : Nat) : Int)
      push_cast; omega
    · show (arrayBackend d).ok (st'.storage c) _ = true
      rw [hD]; exact h c hc

end

section
variable {d : Nat} {K P : Type} [Field K] [LinearOrder K] [FloorRing K] {size : Fin d → Nat} {lo : Idx d}

/-- **C68** (loaded static NDT maps; partial and refutation in one). Load a saved static map. Every later history is defined on the original. If the minimum index is even in the first dimension, or the original has no bundle in the
last accepted row of that dimension after the history, the history is defined on the loaded map, with the same bundles, contents, bounds and samples; otherwise it accesses an array of the loaded map out
of range. -/
theorem C68_loaded_static_partial {exp0 : Multiset (Pt K d) → Bool} (hd : 0 < d) (m : MapObj (arrayBackend d) K P (Multiset (Pt K d))) (hR : MapReachable (.static size lo) exp0 m.st)
    (hrange : ∀ a, -2147483648 ≤ lo a ∧ lo a + 2 * (size a : Int) ≤ 2147483647)
    (hpar : lo ⟨0, hd⟩ % 2 = 0 ∨ ∀ bi ∈ m.st.bundleIndices, bi ⟨0, hd⟩ ≠ lo ⟨0, hd⟩ + 2 * (size ⟨0, hd⟩ : Int) - 2)
    (io : Io K P) (F : Fmt (Multiset (Pt K d))) (hF : F.reported = F.codec.size) (hp : io.pose.Ok m.pose) (hr : io.real.Ok m.resolution) (hv : ∀ c k x, m.st.content c k = some x → F.codec.Ok x)
    (old : Option Dir) (t : SaveTrace d old (headerBytes io (staticHeader size m)) (storeFiles io F m))
    (canOpen : Nat → Bool) (sched : List Nat) (hopen : ∀ c ∈ sched, canOpen c = true) (hj : (Threads.run canOpen sched).Joined (2 ^ d)) (junk : Nat → Multiset (Pt K d)) :
    ∃ m', loadDir io d F (rebuildStatic junk) canOpen sched (runEffs old t.effects) = .loaded m' ∧
      ∀ geo exp ops, ∃ a, gridRun geo false exp ops m.st = some a ∧
        ((lo ⟨0, hd⟩ % 2 = 0 ∨ ∀ bi ∈ a.bundleIndices, bi ⟨0, hd⟩ ≠ lo ⟨0, hd⟩ + 2 * (size ⟨0, hd⟩ : Int) - 2) →
          ∃ b, gridRun geo false exp ops m'.st = some b ∧ Spec.Restored a b ∧
            ∀ dens p, sampleNNAt geo false dens p b = sampleNNAt geo false dens p a ∧ sampleBilinearAt geo false dens p b = sampleBilinearAt geo false dens p a) ∧
        (¬ (lo ⟨0, hd⟩ % 2 = 0 ∨ ∀ bi ∈ a.bundleIndices, bi ⟨0, hd⟩ ≠ lo ⟨0, hd⟩ + 2 * (size ⟨0, hd⟩ : Int) - 2) → gridRun geo false exp ops m'.st = none) := by
  obtain ⟨m', y1, _, _, y4, y5, y6, y7⟩ := static_load_restores hd m hR hrange hpar io F hF hp hr hv old t canOpen sched hopen hj junk
  refine ⟨m', y1, fun geo exp ops => ?_⟩
  have hI : RInv (arrayLawful d) false m.st := hR.spec.1
  have hval : ∀ i, m.st.abs.valid false i = true ↔ ∀ a, lo a ≤ i a ∧ i a < lo a + 2 * (size a : Int) - 1 := fun i => (iff_of_eq (congrArg (· = true) (hR.spec.2.valid i))).trans (Kind.static_valid _ _ _)
  obtain ⟨a, ha⟩ := gridRun_total (arrayLawful d) geo false exp ops m.st hI fun i h => (hR.spec.2.good i).2 (Kind.static_good _ _ _ ((hR.spec.2.valid i).symm.trans h))
  have hIa := (gridRun_keeps (L := arrayLawful d) geo exp ops m.st a hI ha).1
  have hmem : ∀ bi, bi ∈ a.bundleIndices ↔ bi ∈ a.abs.allocated := fun bi => by rw [mem_allocated_iff]; exact mem_bundleIndices (arrayLawful d) a hIa.inv bi
  have hva : ∀ bi ∈ a.abs.allocated, ∀ x, lo x ≤ bi x ∧ bi x < lo x + 2 * (size x : Int) - 1 := by
    intro bi hb
    rcases gridRun_valid (arrayLawful d) geo exp ops m.st a hI ha bi hb with h | h
    · exact static_valid_of hR bi ((mem_bundleIndices (arrayLawful d) m.st hI.inv bi).2 ((mem_allocated_iff m.st bi).1 h))
    · exact (hval bi).1 h
  have hl : Alike (arrayLawful d) false m.st m'.st := alike_of_restored hI y5 y4 (loaded_bundles_ok hR y6)
  refine ⟨a, ha, fun hno => ?_, fun hlast => ?_⟩
  · have hs : Sub (arrayLawful d) false {bi | m'.st.abs.Good bi} m'.st m.st := ⟨⟨y5, hI, hl.sim.symm⟩, fun bi hb _ => hb⟩
    obtain ⟨b, hb, hab⟩ := St.Sub.gridRun geo exp ops hs ha (by
      intro bi hbi
      exact (loaded_good_iff hd y6 y7 bi (hva bi hbi)).2 (hno.imp_right fun h => h bi ((hmem bi).2 hbi)))
    have hal : Alike (arrayLawful d) false a b := ⟨hab.inv', hab.inv, hab.sim.symm⟩
    exact ⟨b, hb, hal.restored, fun dens p => ⟨hal.sampleWith .., hal.sampleWith ..⟩⟩
  · cases hb : gridRun geo false exp ops m'.st with
    | none => rfl
    | some b =>
      exfalso
      have hs : Sub (arrayLawful d) false Set.univ m.st m'.st := ⟨hl, fun bi _ h => loaded_arrays_good hR y6 y7 bi h⟩
      obtain ⟨a2, ha2, hab⟩ := St.Sub.gridRun geo exp ops hs hb (Set.subset_univ _)
      rw [ha] at ha2; cases ha2
      refine hlast (or_iff_not_imp_left.2 fun hodd bi hbi => ?_)
      have hbb : bi ∈ b.abs.allocated := by rw [hab.sim.allocated]; exact (hmem bi).1 hbi
      have hg := good_of_allocated (arrayLawful d) b hab.inv'.inv bi hbb
      rw [(gridRun_keeps (L := arrayLawful d) geo exp ops m'.st b y5 hb).2.good, loaded_good_iff hd y6 y7 bi (hva bi ((hmem bi).1 hbi))] at hg
      exact hg.resolve_left hodd

/-- **C68** (loaded static occupancy maps, plain or weighted, with visibility-based insertion among the later operations) -/
theorem C68_loaded_static_occupancy_partial {W E M : Type} [AddCommMonoid W] {exp0 : Occ W E → Bool} (hd : 0 < d) (m : MapObj (arrayBackend d) K P (Occ W E)) (hR : MapReachable (.static size lo) exp0 m.st)
    (hrange : ∀ a, -2147483648 ≤ lo a ∧ lo a + 2 * (size a : Int) ≤ 2147483647)
    (hpar : lo ⟨0, hd⟩ % 2 = 0 ∨ ∀ bi ∈ m.st.bundleIndices, bi ⟨0, hd⟩ ≠ lo ⟨0, hd⟩ + 2 * (size ⟨0, hd⟩ : Int) - 2)
    (io : Io K P) (F : Fmt (Occ W E)) (hF : F.reported = F.codec.size) (hp : io.pose.Ok m.pose) (hr : io.real.Ok m.resolution) (hv : ∀ c k x, m.st.content c k = some x → F.codec.Ok x)
    (old : Option Dir) (t : SaveTrace d old (headerBytes io (staticHeader size m)) (storeFiles io F m))
    (canOpen : Nat → Bool) (sched : List Nat) (hopen : ∀ c ∈ sched, canOpen c = true) (hj : (Threads.run canOpen sched).Joined (2 ^ d)) (junk : Nat → Occ W E) :
    ∃ m', loadDir io d F (rebuildStatic junk) canOpen sched (runEffs old t.effects) = .loaded m' ∧
      ∀ (fl : Flavour K d W E) geo defRay exp ops, ∃ a, occRun fl geo false defRay exp ops m.st = some a ∧
        ((lo ⟨0, hd⟩ % 2 = 0 ∨ ∀ bi ∈ a.bundleIndices, bi ⟨0, hd⟩ ≠ lo ⟨0, hd⟩ + 2 * (size ⟨0, hd⟩ : Int) - 2) →
          ∃ b, occRun fl geo false defRay exp ops m'.st = some b ∧ Spec.Restored a b ∧
            ∀ (dens : Multiset E → Pt K d → K) (occ : M → Occ W E → K) p ivm,
              occSampleNNAt geo false dens occ p ivm b = occSampleNNAt geo false dens occ p ivm a ∧
              occSampleBilinearAt geo false dens occ p ivm b = occSampleBilinearAt geo false dens occ p ivm a) ∧
        (¬ (lo ⟨0, hd⟩ % 2 = 0 ∨ ∀ bi ∈ a.bundleIndices, bi ⟨0, hd⟩ ≠ lo ⟨0, hd⟩ + 2 * (size ⟨0, hd⟩ : Int) - 2) → occRun fl geo false defRay exp ops m'.st = none) := by
  obtain ⟨m', y1, _, _, y4, y5, y6, y7⟩ := static_load_restores hd m hR hrange hpar io F hF hp hr hv old t canOpen sched hopen hj junk
  refine ⟨m', y1, fun fl geo defRay exp ops => ?_⟩
  have hI : RInv (arrayLawful d) false m.st := hR.spec.1
  have hval : ∀ i, m.st.abs.valid false i = true ↔ ∀ a, lo a ≤ i a ∧ i a < lo a + 2 * (size a : Int) - 1 := fun i => (iff_of_eq (congrArg (· = true) (hR.spec.2.valid i))).trans (Kind.static_valid _ _ _)
  obtain ⟨a, ha⟩ := occRun_total (arrayLawful d) fl geo false defRay exp ops m.st hI fun i h => (hR.spec.2.good i).2 (Kind.static_good _ _ _ ((hR.spec.2.valid i).symm.trans h))
  have hIa := (occRun_inv (arrayLawful d) fl geo false defRay exp ops m.st a hI ha).1
  have hmem : ∀ bi, bi ∈ a.bundleIndices ↔ bi ∈ a.abs.allocated := fun bi => by rw [mem_allocated_iff]; exact mem_bundleIndices (arrayLawful d) a hIa.inv bi
  have hva : ∀ bi ∈ a.abs.allocated, ∀ x, lo x ≤ bi x ∧ bi x < lo x + 2 * (size x : Int) - 1 := by
    intro bi hb
    rcases occRun_valid (arrayLawful d) fl geo defRay exp ops m.st a hI ha bi hb with h | h
    · exact static_valid_of hR bi ((mem_bundleIndices (arrayLawful d) m.st hI.inv bi).2 ((mem_allocated_iff m.st bi).1 h))
    · exact (hval bi).1 h
  have hl : Alike (arrayLawful d) false m.st m'.st := alike_of_restored hI y5 y4 (loaded_bundles_ok hR y6)
  refine ⟨a, ha, fun hno => ?_, fun hlast => ?_⟩
  · have hs : Sub (arrayLawful d) false {bi | m'.st.abs.Good bi} m'.st m.st := ⟨⟨y5, hI, hl.sim.symm⟩, fun bi hb _ => hb⟩
    obtain ⟨b, hb, hab⟩ := St.Sub.occRun fl geo defRay exp ops hs ha (by
      intro bi hbi
      exact (loaded_good_iff hd y6 y7 bi (hva bi hbi)).2 (hno.imp_right fun h => h bi ((hmem bi).2 hbi)))
    have hal : Alike (arrayLawful d) false a b := ⟨hab.inv', hab.inv, hab.sim.symm⟩
    refine ⟨b, hb, hal.restored, fun dens occ p ivm => ?_⟩
    cases ivm with
    | none => exact ⟨rfl, rfl⟩
    | some m => exact ⟨congrArg Except.ok (hal.sampleWith ..), congrArg Except.ok (hal.sampleWith ..)⟩
  · cases hb : occRun fl geo false defRay exp ops m'.st with
    | none => rfl
    | some b =>
      exfalso
      have hs : Sub (arrayLawful d) false Set.univ m.st m'.st := ⟨hl, fun bi _ h => loaded_arrays_good hR y6 y7 bi h⟩
      obtain ⟨a2, ha2, hab⟩ := St.Sub.occRun fl geo defRay exp ops hs hb (Set.subset_univ _)
      rw [ha] at ha2; cases ha2
      refine hlast (or_iff_not_imp_left.2 fun hodd bi hbi => ?_)
      have hbb : bi ∈ b.abs.allocated := by rw [hab.sim.allocated]; exact (hmem bi).1 hbi
      have hg := good_of_allocated (arrayLawful d) b hab.inv'.inv bi hbb
      rw [(occRun_inv (arrayLawful d) fl geo false defRay exp ops m'.st b y5 hb).2.good, loaded_good_iff hd y6 y7 bi (hva bi ((hmem bi).1 hbi))] at hg
      exact hg.resolve_left hodd

/-- **C98** (static maps that were saved and loaded). Whatever is computed from a loaded static map – converted maps, sizes, costs and derivatives of scan matching, rounded or not – is what the original gives; the
order of the bundles and of the distributions is the same, so that clouds and markers are. -/
theorem C98_loaded_static {D : Type} [Inhabited D] {exp0 : D → Bool} (hd : 0 < d) (m : MapObj (arrayBackend d) K P D) (hR : MapReachable (.static size lo) exp0 m.st)
    (hrange : ∀ a, -2147483648 ≤ lo a ∧ lo a + 2 * (size a : Int) ≤ 2147483647)
    (hpar : lo ⟨0, hd⟩ % 2 = 0 ∨ ∀ bi ∈ m.st.bundleIndices, bi ⟨0, hd⟩ ≠ lo ⟨0, hd⟩ + 2 * (size ⟨0, hd⟩ : Int) - 2)
    (io : Io K P) (F : Fmt D) (hF : F.reported = F.codec.size) (hp : io.pose.Ok m.pose) (hr : io.real.Ok m.resolution) (hv : ∀ c k x, m.st.content c k = some x → F.codec.Ok x)
    (old : Option Dir) (t : SaveTrace d old (headerBytes io (staticHeader size m)) (storeFiles io F m))
    (canOpen : Nat → Bool) (sched : List Nat) (hopen : ∀ c ∈ sched, canOpen c = true) (hj : (Threads.run canOpen sched).Joined (2 ^ d)) (junk : Nat → D) :
    ∃ m', loadDir io d F (rebuildStatic junk) canOpen sched (runEffs old t.effects) = .loaded m' ∧
      Spec.SameConversions (.static size lo) K m.st m'.st ∧ Spec.SameCosts false m.st m'.st ∧ m'.st.items = m.st.items := by
  obtain ⟨m', y1, _, _, y4, y5, y6, _⟩ := static_load_restores hd m hR hrange hpar io F hF hp hr hv old t canOpen sched hopen hj junk
  exact ⟨m', y1, same_conversions (.static size lo) (kind_traverse (.static size lo) hR.spec.1.inv y5.inv y4) y4.minB y4.maxB,
    same_costs (alike_of_restored hR.spec.1 y5 y4 (loaded_bundles_ok hR y6)), kind_items (.static size lo) hR.spec.1.inv y5.inv y4⟩

end

/-! ### witness -/

/-- A reachable one-dimensional static map of the accepted bundles `m`, `m + 1` and `m + 2`, with the bundle `m`. -/
theorem sample_first_row (m : Int) : ∃ st : St (arrayBackend 1) (Occ Nat Unit), MapReachable (.static (fun _ => 2) (fun _ => m)) (fun _ => false) st ∧
    (∀ bi, bi ∈ st.bundleIndices ↔ bi = fun _ => m) ∧ ∀ c k x, st.content c k = some x → x = Occ.new := by
  let k : Kind 1 := .static (fun _ => 2) (fun _ => m)
  have hI : RInv (arrayLawful 1) false (k.init (Occ Nat Unit)) := k.init_rinv
  have hv : (k.init (Occ Nat Unit)).abs.valid false (fun _ => m) = true := (Kind.static_valid _ _ _).2 fun a => by
    show m ≤ m ∧ m < m + 2 * ((2 : Nat) : Int) - 1
    push_cast
    omega
  obtain ⟨b, st, h1, h2, h3, _⟩ := getAllocate_spec (arrayLawful 1) false (fun _ => m) (k.init (Occ Nat Unit)) hI.inv (Kind.static_good _ _ _ hv)
  have hR : MapReachable k (fun _ => false) st := .core (k := k) (.bundleAt fun _ => m) _ st .init (by
    show St.coreStep false _ _ _ = _
    simp only [St.coreStep, getDistributionBundle]
    rw [if_pos (show (k.init (Occ Nat Unit)).valid false (fun _ => m) = true from hv), h1]; rfl)
  refine ⟨st, hR, ?_, ?_⟩
  · intro bi
    rw [mem_bundleIndices (arrayLawful 1) st h2, ← mem_allocated_iff, h3, Abs.allocated_alloc, Kind.init_allocated]
    simp
  · intro c i x hx
    have hx' : ((k.init (Occ Nat Unit)).abs.alloc false (fun _ => m)).content c i = some x := by rw [← h3]; exact hx
    have hf : (k.init (Occ Nat Unit)).abs.flags (fun _ => m) = none := Kind.init_flags _ _
    have h0 : ∀ c i, (k.init (Occ Nat Unit)).abs.content c i = none := fun c i => Kind.init_content _ _ _
    unfold Abs.alloc at hx'
    rw [if_neg (by rw [hf]; simp)] at hx'
    simp only [h0] at hx'
    split at hx'
    · cases hx'; rfl
    · cases hx'

theorem static_after_load (m : Int) (hm : -1000000 ≤ m ∧ m ≤ 1000000) : ∃ st : St (arrayBackend 1) (Occ Nat Unit), MapReachable (.static (fun _ => 2) (fun _ => m)) (fun _ => false) st ∧ (fun _ => m) ∈ st.bundleIndices ∧
    ∀ (old : Option Dir) (t : SaveTrace 1 old (headerBytes ratIo (staticHeader (fun _ => 2) ⟨3, 7, st⟩)) (storeFiles ratIo (occFmt (natCodec 8) unitCodec) ⟨3, 7, st⟩)), ∃ m',
    loadDir ratIo 1 (occFmt (natCodec 8) unitCodec) (rebuildStatic (fun _ => Occ.new)) (fun _ => true) [1, 0, 1, 0, 1, 0] (runEffs old t.effects) = .loaded m' ∧ Spec.Restored st m'.st ∧
    ∀ (geo : Geo ℚ 1) defRay exp, ∃ a, occRun unitFlavour geo false defRay exp [.core (.bundleAt fun _ => m + 2)] st = some a ∧ (fun _ => m + 2) ∈ a.bundleIndices ∧
      (m % 2 = 0 → ∃ b, occRun unitFlavour geo false defRay exp [.core (.bundleAt fun _ => m + 2)] m'.st = some b ∧ Spec.Restored a b) ∧
      (m % 2 = 1 → occRun unitFlavour geo false defRay exp [.core (.bundleAt fun _ => m + 2)] m'.st = none) := by
  obtain ⟨st, h1, h2, h3⟩ := sample_first_row m
  refine ⟨st, h1, (h2 _).2 rfl, fun old t => ?_⟩
  have hlast : ∀ bi ∈ st.bundleIndices, bi ⟨0, by decide⟩ ≠ m + 2 * ((2 : Nat) : Int) - 2 := by
    intro bi hb
    rw [(h2 bi).1 hb]
    push_cast
    omega
  obtain ⟨m', y1, y2⟩ := C68_loaded_static_occupancy_partial (M := Unit) (by decide) ⟨3, 7, st⟩ h1 (fun _ => by push_cast; omega) (Or.inr hlast) ratIo (occFmt (natCodec 8) unitCodec) rfl
    (by show (3 : Nat) < 256 ^ 24; norm_num) ⟨7, by norm_num, by norm_num⟩ (by
      intro c k x hx
      rw [h3 c k x hx]
      refine ⟨?_, ?_, ?_⟩
      · show (0 : Nat) < 256 ^ 8; norm_num
      · show (0 : Multiset Unit).card < 256 ^ 8
        norm_num
      · simp [Occ.new]) old t (fun _ => true) [1, 0, 1, 0, 1, 0] (fun _ _ => rfl)
    (by intro c hc
        have : c = 0 ∨ c = 1 := by omega
        rcases this with rfl | rfl <;> decide) (fun _ => Occ.new)
  have hres : Spec.Restored st m'.st := by
    obtain ⟨a, ha, hb, _⟩ := y2 unitFlavour ⟨1, id, fun _ => true⟩ (fun _ _ => []) (fun _ => false) []
    cases ha
    obtain ⟨b, hb, hr, _⟩ := hb (Or.inr hlast)
    cases hb
    exact hr
  refine ⟨m', y1, hres, fun geo defRay exp => ?_⟩
  obtain ⟨a, ha, hb, hn⟩ := y2 unitFlavour geo defRay exp [.core (.bundleAt fun _ => m + 2)]
  have hal : (fun _ => m + 2 : Idx 1) ∈ a.bundleIndices := by
    have hI : RInv (arrayLawful 1) false st := h1.spec.1
    have hIa := (occRun_inv (arrayLawful 1) unitFlavour geo false defRay exp _ st a hI ha).1
    rw [mem_bundleIndices (arrayLawful 1) a hIa.inv, ← mem_allocated_iff]
    have hv : st.valid false (fun _ => m + 2) = true := (h1.spec.2.valid _).trans ((Kind.static_valid _ _ _).2 fun a => by
      show m ≤ m + 2 ∧ m + 2 < m + 2 * ((2 : Nat) : Int) - 1
      push_cast
      omega)
    have ha' : St.coreStep false exp (.bundleAt fun _ => m + 2) st = some a := by
      simp only [occRun, occStep, Option.bind_eq_bind] at ha
      simpa using ha
    simp only [St.coreStep, getDistributionBundle] at ha'
    rw [if_pos hv] at ha'
    obtain ⟨b, s, g1, _, g3, _⟩ := getAllocate_spec (arrayLawful 1) false (fun _ => m + 2) st hI.inv ((h1.spec.2.good _).2 (Kind.static_good _ _ _ ((h1.spec.2.valid _).symm.trans hv)))
    rw [g1] at ha'
    have : s = a := by simpa using ha'
    rw [← this, g3, Abs.allocated_alloc]
    exact Set.mem_insert _ _
  refine ⟨a, ha, hal, fun he => ?_, fun ho => ?_⟩
  · obtain ⟨b, hb, hr, _⟩ := hb (Or.inl he)
    exact ⟨b, hb, hr⟩
  · refine hn ?_
    rintro (h | h)
    · have h' : m % 2 = 0 := h
      omega
    · refine h _ hal ?_
      show m + 2 = m + 2 * ((2 : Nat) : Int) - 2
      push_cast; ring

/-- **C68 refuted** for loaded static maps: a reachable map with minimum index 1 that is saved and loaded, with all its bundles and contents; looking up its last accepted bundle is defined on the
original and accesses an array of the loaded map out of range. -/
theorem C68_loaded_static_refuted : ∃ st : St (arrayBackend 1) (Occ Nat Unit), MapReachable (.static (fun _ => 2) (fun _ => 1)) (fun _ => false) st ∧ (fun _ => 1) ∈ st.bundleIndices ∧
    ∀ (old : Option Dir) (t : SaveTrace 1 old (headerBytes ratIo (staticHeader (fun _ => 2) ⟨3, 7, st⟩)) (storeFiles ratIo (occFmt (natCodec 8) unitCodec) ⟨3, 7, st⟩)), ∃ m',
    loadDir ratIo 1 (occFmt (natCodec 8) unitCodec) (rebuildStatic (fun _ => Occ.new)) (fun _ => true) [1, 0, 1, 0, 1, 0] (runEffs old t.effects) = .loaded m' ∧ Spec.Restored st m'.st ∧
    ∀ (geo : Geo ℚ 1) defRay exp, (∃ a, occRun unitFlavour geo false defRay exp [.core (.bundleAt fun _ => 3)] st = some a) ∧
      occRun unitFlavour geo false defRay exp [.core (.bundleAt fun _ => 3)] m'.st = none := by
  obtain ⟨st, h1, h2, h3⟩ := static_after_load 1 (by decide)
  refine ⟨st, h1, h2, fun old t => ?_⟩
  obtain ⟨m', y1, y2, y3⟩ := h3 old t
  refine ⟨m', y1, y2, fun geo defRay exp => ?_⟩
  obtain ⟨a, ha, _, _, hn⟩ := y3 geo defRay exp
  exact ⟨⟨a, ha⟩, hn (by decide)⟩

/-- Non-vacuity of the positive part: with minimum index 0 the loaded map accepts its last bundle. -/
example : ∃ st : St (arrayBackend 1) (Occ Nat Unit), (fun _ => 0) ∈ st.bundleIndices ∧
    ∀ (old : Option Dir) (t : SaveTrace 1 old (headerBytes ratIo (staticHeader (fun _ => 2) ⟨3, 7, st⟩)) (storeFiles ratIo (occFmt (natCodec 8) unitCodec) ⟨3, 7, st⟩)), ∃ m',
    loadDir ratIo 1 (occFmt (natCodec 8) unitCodec) (rebuildStatic (fun _ => Occ.new)) (fun _ => true) [1, 0, 1, 0, 1, 0] (runEffs old t.effects) = .loaded m' ∧
    ∀ (geo : Geo ℚ 1) defRay exp, ∃ b, occRun unitFlavour geo false defRay exp [.core (.bundleAt fun _ => 2)] m'.st = some b ∧ (fun _ => 2) ∈ b.bundleIndices := by
  obtain ⟨st, h1, h2, h3⟩ := static_after_load 0 (by decide)
  refine ⟨st, h2, fun old t => ?_⟩
  obtain ⟨m', y1, y2, y3⟩ := h3 old t
  refine ⟨m', y1, fun geo defRay exp => ?_⟩
  obtain ⟨a, ha, hl, hb, _⟩ := y3 geo defRay exp
  obtain ⟨b, hb, hr⟩ := hb (by decide)
  exact ⟨b, hb, (hr.bundles _).2 hl⟩

end Ndt
