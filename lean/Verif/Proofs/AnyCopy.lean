import Verif.Proofs.Lifetime
import Verif.Proofs.Copy
import Verif.Proofs.SerialMap

/-! The operations of the occupancy maps as sequences of updates of bundles, without assuming anything about the state, and what copies and their originals have in common, for every class of maps. -/

namespace Ndt
open St

section
variable {K : Type} [Field K] [LinearOrder K] [FloorRing K] {d : Nat} {B : Backend d} {W E : Type} [AddCommMonoid W]

omit [Field K] [LinearOrder K] [FloorRing K] in
theorem occHits_updates (fl : Flavour K d W E) (dyn : Bool) (ray : Pt K d → Pt K d → List (Idx d)) (start : Pt K d) : ∀ (u : List (Idx d × Multiset E)) (free free' : List (Idx d × W))
    (st st' : St B (Occ W E)), occHits fl dyn ray start u free st = some (free', st') → ∃ l, updateList dyn l st = some st'
  | [], free, free', st, st', h => by cases h; exact ⟨[], rfl⟩
  | e :: u, free, free', st, st', h => by
    simp only [occHits] at h
    split at h
    · cases h
    · rename_i st1 h1
      obtain ⟨l, hl⟩ := occHits_updates fl dyn ray start u _ free' st1 st' h
      split at h1
      · cases h1; exact ⟨l, hl⟩
      · refine ⟨(e.1, fun o => o.updateOccupied e.2) :: l, ?_⟩
        simp only [updateList, h1, Option.bind_some]
        exact hl

omit [FloorRing K] in
theorem visHits_updates (fl : Flavour K d W E) (dyn : Bool) (ray : Pt K d → Pt K d → List (Idx d)) (occ : Occ W E → K) (vm : VisModel K) (start : Pt K d) (startBi : Idx d) :
    ∀ (u : List (Idx d × Multiset E)) (free : List (Idx d × W)) (free' : Option (List (Idx d × W)))
    (st st' : St B (Occ W E)), visHits fl dyn ray occ vm start startBi u free st = some (free', st') → ∃ l, updateList dyn l st = some st'
  | [], free, free', st, st', h => by cases h; exact ⟨[], rfl⟩
  | e :: u, free, free', st, st', h => by
    simp only [visHits] at h
    split at h
    · cases h
    · cases h; exact ⟨[], rfl⟩
    · split at h
      · cases h
      · split at h
        · split at h
          · cases h
          · rename_i st1 h1
            obtain ⟨l, hl⟩ := visHits_updates fl dyn ray occ vm start startBi u _ free' st1 st' h
            refine ⟨(e.1, fun o => o.updateOccupied e.2) :: l, ?_⟩
            simp only [updateList, h1, Option.bind_some]
            exact hl
        · exact visHits_updates fl dyn ray occ vm start startBi u _ free' st st' h

theorem occInsert_updates (fl : Flavour K d W E) (g : Geo K d) (dyn : Bool) (s : Scan K d W) (st st' : St B (Occ W E)) (h : occInsert fl g dyn s st = some st') :
    ∃ l, updateList dyn l st = some st' := by
  simp only [occInsert] at h
  split at h
  · cases h
  · rename_i h1
    obtain ⟨l, hl⟩ := occHits_updates fl dyn _ _ _ _ _ _ _ h1
    unfold occFree at h
    exact ⟨_, (updateList_append dyn l _ st).trans (by rw [hl]; exact h)⟩

theorem occStep_updates (fl : Flavour K d W E) (g : Geo K d) (dyn : Bool) (defRay : Pt K d → Pt K d → List (Idx d)) (exp : Occ W E → Bool) (op : OccMapOp K d W E) (st st' : St B (Occ W E))
    (h : occStep fl g dyn defRay exp op st = some st') : (∃ l, updateList dyn l st = some st') ∨ ∃ o, coreStep dyn exp o st = some st' := by
  cases op with
  | insert s => exact .inl (occInsert_updates fl g dyn s st st' h)
  | core op => exact .inr ⟨op, h⟩
  | insertVisible s occ vm =>
    refine .inl ?_
    simp only [occStep, occInsertVisible] at h
    split at h
    · split at h
      · cases h
      · rename_i h1
        cases h
        exact visHits_updates fl dyn _ _ _ _ _ _ _ _ _ _ h1
      · rename_i h1
        obtain ⟨l, hl⟩ := visHits_updates fl dyn _ _ _ _ _ _ _ _ _ _ h1
        unfold occFree at h
        exact ⟨_, (updateList_append dyn l _ st).trans (by rw [hl]; exact h)⟩
    · exact occInsert_updates fl g dyn _ st st' h

theorem grow_occStep (L : B.Lawful) (fl : Flavour K d W E) (g : Geo K d) (dyn : Bool) (defRay : Pt K d → Pt K d → List (Idx d)) (exp : Occ W E → Bool) (op : OccMapOp K d W E)
    (st st' : St B (Occ W E)) (hW : St.W L st) (h : occStep fl g dyn defRay exp op st = some st') : Grow L st st' := by
  rcases occStep_updates fl g dyn defRay exp op st st' h with ⟨l, hl⟩ | ⟨o, ho⟩
  · exact grow_updateList L dyn l st st' hW hl
  · exact grow_coreStep L dyn exp o st st' hW ho

theorem frame_occStep (L : B.Lawful) (fl : Flavour K d W E) (g : Geo K d) (dyn : Bool) (defRay : Pt K d → Pt K d → List (Idx d)) (exp : Occ W E → Bool) (op : OccMapOp K d W E)
    (st st' : St B (Occ W E)) (hI : RInv L dyn st) (h : occStep fl g dyn defRay exp op st = some st') : Frame st st' ∧ RInv L dyn st' := by
  refine ⟨?_, (occStep_inv L fl g dyn defRay exp op st st' hI h).1⟩
  rcases occStep_updates fl g dyn defRay exp op st st' h with ⟨l, hl⟩ | ⟨o, ho⟩
  · exact (frame_updateList L dyn l st st' hI.inv hl)
  · exact frame_coreStep L dyn exp o st st' hI ho

end

section
variable {d : Nat} {D : Type} [Inhabited D] {k : Kind d} {exp : D → Bool}

theorem MapReachable.grow {st : St k.backend D} (h : MapReachable k exp st) : Grow k.lawful (k.init D) st := by
  induction h with
  | init =>
    have hI := k.init_rinv (D := D)
    exact .refl ⟨hI.inv.store, hI.inv.fresh, hI.inv.bstore⟩
  | core op st st' _ h ih => exact ih.trans (grow_coreStep k.lawful k.dyn exp op st st' ih.w h)
  | updates l st st' _ _ h ih => exact ih.trans (grow_updateList k.lawful k.dyn l st st' ih.w h)

theorem MapReachable.bundles_owned {st : St k.backend D} (h : MapReachable k exp st)
    (bi : Idx d) (b : Bundle) (c a : Nat) (hb : st.bundle bi = some b) (ha : b.data c = some a) : ∃ i, c < 2 ^ d ∧ st.dist c i = some a :=
  h.grow.bnew bi b (Kind.init_bundle k bi) hb c a ha

/-- every object that a map has ever allocated is in one of its storages -/
theorem MapReachable.all_owned {st : St k.backend D} (hst : MapReachable k exp st) (a : Nat) : a ∈ ownedObjects k.backend st.storage ↔ a < st.next := by
  rw [mem_owned k.lawful st hst.grow.w.store]
  constructor
  · rintro ⟨c, i, _, h⟩; exact hst.grow.w.fresh c i a h
  · intro h
    refine hst.grow.cover a ?_ h
    cases k <;> exact Nat.zero_le _

end

section
variable {d : Nat} {D : Type}

/-- what holds for a static map and its copy at any time after copying -/
structure Related (st : St (arrayBackend d) D) (T : Twin (arrayBackend d) D) : Prop where
  shareS : ∀ c, T.shareS c = false
  shareB : T.shareB = false
  wO : W (arrayLawful d) T.viewO
  wC : W (arrayLawful d) T.viewC
  disj : ∀ c k c' k' a, c < 2 ^ d → c' < 2 ^ d → T.viewO.dist c k = some a → T.viewC.dist c' k' ≠ some a
  ownO : ∀ bi b c a, T.viewO.bundle bi = some b → b.data c = some a → ∃ k, c < 2 ^ d ∧ T.viewO.dist c k = some a
  keepO : ∀ c k a, st.dist c k = some a → T.viewO.dist c k = some a
  oldC : ∀ bi b, st.bundle bi = some b → ∃ b', T.viewC.bundle bi = some b' ∧ b'.data = b.data
  newC : ∀ bi b, st.bundle bi = none → T.viewC.bundle bi = some b → ∀ c a, b.data c = some a → ∃ k, c < 2 ^ d ∧ T.viewC.dist c k = some a

theorem related_copy [Inhabited D] (exp : D → Bool) (size : Fin d → Nat) (lo : Idx d) (st : St (arrayBackend d) D)
    (hst : MapReachable (.static size lo) exp st) : Related st (copyStatic st) := by
  have hI : Inv (arrayLawful d) st := hst.spec.1.inv
  obtain ⟨x1, x2, x3, x4⟩ := dupStorages_spec st hI.fresh (2 ^ d) st.heap st.next st.storage (le_refl _) (fun _ _ => rfl)
  have hO : (copyStatic st).viewO.dist = st.dist := rfl
  have hC : ∀ c k a, c < 2 ^ d → (copyStatic st).viewC.dist c k = some a → st.next ≤ a ∧ a < (copyStatic st).next := by
    intro c k a hc h
    rcases x4 c hc k with ⟨z, _⟩ | ⟨a1, a', z1, _, z3, z4, _⟩
    · cases h.symm.trans z
    · cases h.symm.trans z1
      exact ⟨z3, z4⟩
  refine ⟨fun _ => rfl, rfl, ⟨fun _ => trivial, ?_, trivial⟩, ⟨fun _ => trivial, ?_, trivial⟩, ?_, ?_, fun _ _ _ h => h, fun _ b h => ⟨b, h, rfl⟩, ?_⟩
  · intro c k a h
    exact lt_of_lt_of_le (hI.fresh c k a h) x1
  · intro c k a h
    by_cases hc : c < 2 ^ d
    · exact (hC c k a hc h).2
    · refine lt_of_lt_of_le (hI.fresh c k a ?_) x1
      have : (copyStatic st).viewC.storage c = st.storage c := x3 c (not_lt.1 hc)
      unfold St.dist at h ⊢; rw [← this]; exact h
  · intro c k c' k' a _ hc' h1 h2
    exact absurd (hI.fresh c k a h1) (not_lt.2 (hC c' k' a hc' h2).1)
  · intro bi b c a hb ha
    exact hst.bundles_owned bi b c a hb ha
  · intro bi b h0 hb
    rw [show st.bundle bi = some b from hb] at h0; cases h0

theorem related_step {Op : Type} (f : Op → St (arrayBackend d) D → Option (St (arrayBackend d) D)) (hG : ∀ op st st', W (arrayLawful d) st → f op st = some st' → Grow (arrayLawful d) st st')
    (st : St (arrayBackend d) D) (op : Bool × Op)
    (T T' : Twin (arrayBackend d) D) (hR : Related st T) (h : T.stepWith f op = some T') : Related st T' := by
  obtain ⟨o, op⟩ := op
  cases o with
  | false =>
    obtain ⟨s, hs, rfl⟩ := Option.map_eq_some_iff.1 h
    have G := hG op _ s hR.wO hs
    have e1 : (T.putO s).viewC.dist = T.viewC.dist := by
      funext c k
      show (arrayBackend d).look (if T.shareS c then _ else _) k = (arrayBackend d).look (if T.shareS c then _ else _) k
      rw [hR.shareS]; rfl
    have e2 : (T.putO s).viewC.bundle = T.viewC.bundle := by
      funext bi
      show (arrayBackend d).look (if T.shareB then _ else _) bi = (arrayBackend d).look (if T.shareB then _ else _) bi
      rw [hR.shareB]; rfl
    refine ⟨hR.shareS, hR.shareB, G.w, ⟨fun _ => trivial, ?_, trivial⟩, ?_, ?_, ?_, ?_, ?_⟩
    · rw [e1]; exact fun c k a x => lt_of_lt_of_le (hR.wC.fresh c k a x) G.next
    · rw [e1]
      intro c k c' k' a hc hc' h1 h2
      rcases G.own c k a h1 with x | x
      · exact hR.disj c k c' k' a hc hc' x h2
      · exact absurd (hR.wC.fresh c' k' a h2) (not_lt.2 x)
    · intro bi b c a hb ha
      cases h0 : T.viewO.bundle bi with
      | none => exact G.bnew bi b h0 hb c a ha
      | some b0 =>
        obtain ⟨b1, y1, y2⟩ := G.bkeep bi b0 h0
        rw [show s.bundle bi = some b from hb] at y1; cases y1
        rw [y2] at ha
        obtain ⟨k, hc, hk⟩ := hR.ownO bi b0 c a h0 ha
        exact ⟨k, hc, G.keep c k a hk⟩
    · exact fun c k a x => G.keep c k a (hR.keepO c k a x)
    · rw [e2]; exact hR.oldC
    · rw [e1, e2]; exact hR.newC
  | true =>
    obtain ⟨s, hs, rfl⟩ := Option.map_eq_some_iff.1 h
    have G := hG op _ s hR.wC hs
    have e1 : (T.putC s).viewO.dist = T.viewO.dist := by
      funext c k
      show (arrayBackend d).look (if T.shareS c then _ else _) k = _
      rw [hR.shareS]; rfl
    have e2 : (T.putC s).viewO.bundle = T.viewO.bundle := by
      funext bi
      show (arrayBackend d).look (if T.shareB then _ else _) bi = _
      rw [hR.shareB]; rfl
    have e3 := viewC_putC T s
    refine ⟨hR.shareS, hR.shareB, ⟨fun _ => trivial, ?_, trivial⟩, by rw [e3]; exact G.w, ?_, ?_, ?_, ?_, ?_⟩
    · rw [e1]; exact fun c k a x => lt_of_lt_of_le (hR.wO.fresh c k a x) G.next
    · rw [e1, e3]
      intro c k c' k' a hc hc' h1 h2
      rcases G.own c' k' a h2 with x | x
      · exact hR.disj c k c' k' a hc hc' h1 x
      · exact absurd (hR.wO.fresh c k a h1) (not_lt.2 x)
    · rw [e1, e2]; exact hR.ownO
    · rw [e1]; exact hR.keepO
    · rw [e3]
      intro bi b hb
      obtain ⟨b1, y1, y2⟩ := hR.oldC bi b hb
      obtain ⟨b2, z1, z2⟩ := G.bkeep bi b1 y1
      exact ⟨b2, z1, z2.trans y2⟩
    · rw [e3]
      intro bi b h0 hb c a ha
      cases h1 : T.viewC.bundle bi with
      | none => exact G.bnew bi b h1 hb c a ha
      | some b0 =>
        obtain ⟨b1, y1, y2⟩ := G.bkeep bi b0 h1
        rw [hb] at y1; cases y1
        rw [y2] at ha
        obtain ⟨k, hc, hk⟩ := hR.newC bi b0 h0 h1 c a ha
        exact ⟨k, hc, G.keep c k a hk⟩

theorem related_run [Inhabited D] (exp : D → Bool) {Op : Type} (f : Op → St (arrayBackend d) D → Option (St (arrayBackend d) D)) (hG : ∀ op st st', W (arrayLawful d) st → f op st = some st' → Grow (arrayLawful d) st st')
    (size : Fin d → Nat) (lo : Idx d) (st : St (arrayBackend d) D)
    (hst : MapReachable (.static size lo) exp st) (hist : List (Bool × Op)) (T : Twin (arrayBackend d) D)
    (h : (copyStatic st).runWith f hist = some T) : Related st T := by
  have : ∀ (hist : List (Bool × Op)) (T T' : Twin (arrayBackend d) D), Related st T → T.runWith f hist = some T' → Related st T' := by
    intro hist
    induction hist with
    | nil => intro T T' hR h; cases h; exact hR
    | cons op l ih =>
      intro T T' hR h
      obtain ⟨T1, h1, h2⟩ := Option.bind_eq_some_iff.1 h
      exact ih T1 T' (related_step f hG st op T T1 hR h1) h2
  exact this hist _ T (related_copy exp size lo st hst) h

/-- every bin of a bundle that existed before copying dangles once the original is gone -/
theorem copy_dangling [Inhabited D] (exp : D → Bool) {Op : Type} (f : Op → St (arrayBackend d) D → Option (St (arrayBackend d) D)) (hG : ∀ op st st', W (arrayLawful d) st → f op st = some st' → Grow (arrayLawful d) st st')
    (size : Fin d → Nat) (lo : Idx d) (st : St (arrayBackend d) D)
    (hst : MapReachable (.static size lo) exp st) (hist : List (Bool × Op)) (T : Twin (arrayBackend d) D)
    (h : (copyStatic st).runWith f hist = some T) (bi : Idx d) (hbi : bi ∈ st.bundleIndices) (c : Nat) (hc : c < 2 ^ d) :
    (T.viewC.readBin [] bi c).isSome = true ∧ T.viewC.readBin (released (.static size lo) T.viewO.storage) bi c = none := by
  have hR := related_run exp f hG size lo st hst hist T h
  have hI : Inv (arrayLawful d) st := hst.spec.1.inv
  obtain ⟨b, hb⟩ := Option.isSome_iff_exists.1 ((mem_bundleIndices _ st hI bi).1 hbi)
  obtain ⟨a, ha, hk⟩ := hI.complete bi b hb c hc
  obtain ⟨b', hb', e⟩ := hR.oldC bi b hb
  have hp : ((T.viewC.bundle bi).bind fun b => b.data c) = some a := by rw [hb']; exact (congrFun e c).trans ha
  unfold readBin
  rw [hp]
  refine ⟨rfl, if_pos ?_⟩
  exact (mem_owned (arrayLawful d) T.viewO (fun _ => trivial) a).2 ⟨c, _, hc, hR.keepO _ _ _ hk⟩

/-- all other bins survive -/
theorem others_survive [Inhabited D] (exp : D → Bool) {Op : Type} (f : Op → St (arrayBackend d) D → Option (St (arrayBackend d) D)) (hG : ∀ op st st', W (arrayLawful d) st → f op st = some st' → Grow (arrayLawful d) st st')
    (size : Fin d → Nat) (lo : Idx d) (st : St (arrayBackend d) D)
    (hst : MapReachable (.static size lo) exp st) (hist : List (Bool × Op)) (T : Twin (arrayBackend d) D)
    (h : (copyStatic st).runWith f hist = some T) (bi : Idx d) (c : Nat) :
    T.viewO.readBin (released (.static size lo) T.viewC.storage) bi c = T.viewO.readBin [] bi c ∧
    (bi ∉ st.bundleIndices → T.viewC.readBin (released (.static size lo) T.viewO.storage) bi c = T.viewC.readBin [] bi c) := by
  have hR := related_run exp f hG size lo st hst hist T h
  have hI : Inv (arrayLawful d) st := hst.spec.1.inv
  have key : ∀ (s : St (arrayBackend d) D) (l : List Nat), (∀ b a, s.bundle bi = some b → b.data c = some a → a ∉ l) → s.readBin l bi c = s.readBin [] bi c := by
    intro s l hl
    unfold readBin
    cases hb : s.bundle bi with
    | none => rfl
    | some b =>
      cases ha : b.data c with
      | none => simp [ha]
      | some a => simp [ha, hl b a hb ha]
  refine ⟨key _ _ fun b a hb ha hm => ?_, fun hn => key _ _ fun b a hb ha hm => ?_⟩
  · obtain ⟨k, hc, hk⟩ := hR.ownO bi b c a hb ha
    obtain ⟨c', k', hc', hk'⟩ := (mem_owned (arrayLawful d) T.viewC (fun _ => trivial) a).1 hm
    exact hR.disj c k c' k' a hc hc' hk hk'
  · have h0 : st.bundle bi = none := by
      cases hx : st.bundle bi with
      | none => rfl
      | some _ => exact absurd ((mem_bundleIndices _ st hI bi).2 (by rw [hx]; rfl)) hn
    obtain ⟨k', hc', hk'⟩ := hR.newC bi b h0 hb c a ha
    obtain ⟨c2, k, hc, hk⟩ := (mem_owned (arrayLawful d) T.viewO (fun _ => trivial) a).1 hm
    exact hR.disj c2 k c k' a hc hc' hk hk'

end
end Ndt
