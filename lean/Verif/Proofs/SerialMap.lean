import Verif.Proofs.Serial
import Verif.Proofs.OccRun
import Verif.Proofs.Gridmap
import Verif.Spec.Restore

/-! Saving and loading maps: reachable maps, restored maps, threads, directories. -/

namespace Ndt
open St

/-! ### reachable maps -/
section
variable {d : Nat} {D : Type} [Inhabited D] {k : Kind d} {exp : D → Bool}

theorem coreStep_valid {B : Backend d} (L : B.Lawful) (dyn : Bool) (exp : D → Bool) (op : CoreOp d) (st st' : St B D) (hI : RInv L dyn st)
    (h : coreStep dyn exp op st = some st') : ∀ bj ∈ st'.abs.allocated, bj ∈ st.abs.allocated ∨ st.abs.valid dyn bj = true := by
  have hlist : ∀ l : List (Idx d), (∀ b ∈ l, b ∈ st.abs.allocated) → l.Nodup → allocPartialList dyn exp l st = some st' →
      ∀ bj ∈ st'.abs.allocated, bj ∈ st.abs.allocated ∨ st.abs.valid dyn bj = true := by
    intro l hm hnd h bj hbj
    obtain ⟨_, x2, _, x4⟩ := (allocPartialList_spec L dyn exp l st hI hm).1 st' h
    obtain ⟨_, hf⟩ := Abs.flags_allocPartialList dyn exp l st.abs hI.ainv hI.rng hnd hm (fun bi hb => x4 bi hb hnd)
    rw [Abs.mem_allocated, x2, hf] at hbj
    split at hbj
    · rename_i h1; exact Or.inl (hm bj h1.1)
    · split at hbj
      · rename_i h2; exact Or.inr h2.1
      · exact Or.inl hbj
  cases op with
  | bundleAt bi =>
    intro bj hbj
    simp only [coreStep, getDistributionBundle] at h
    split at h
    · rename_i hv
      cases hg : getAllocate dyn bi st with
      | none => rw [hg] at h; cases h
      | some p =>
        obtain ⟨b, st1⟩ := p
        rw [hg] at h
        cases h
        have hr := getAllocate_refines L dyn bi st hI.inv
        rw [hg] at hr
        obtain ⟨_, _, hA1⟩ := hr.of_some rfl
        have hA1' : st1.abs = st.abs.alloc dyn bi := hA1
        have hbj' : bj ∈ st1.abs.allocated := hbj
        rw [hA1', Abs.allocated_alloc] at hbj'
        rcases hbj' with e | e
        · right; rw [e]; exact hv
        · exact Or.inl e
    · cases h; exact Or.inl hbj
  | get bi =>
    intro bj hbj
    simp only [coreStep] at h
    cases hg : getBundle dyn bi st with
    | none => rw [hg] at h; cases h
    | some p => rw [hg] at h; cases h; exact Or.inl hbj
  | expandOne bi =>
    simp only [coreStep] at h
    cases hg : getBundle dyn bi st with
    | none => rw [hg] at h; cases h
    | some p =>
      cases p with
      | none => rw [hg] at h; cases h; exact fun bj hbj => Or.inl hbj
      | some b =>
        rw [hg] at h
        simp only at h
        have hb : bi ∈ st.abs.allocated := by
          unfold getBundle at hg
          rw [mem_allocated_iff]
          unfold bundle Backend.look
          split at hg
          · split at hg
            · rename_i hok
              rw [if_pos hok]; cases hg' : B.get st.bundles bi with
              | none => rw [hg'] at hg; cases hg
              | some x => rfl
            · cases hg
          · cases hg
        refine hlist [bi] (by intro b hb'; rw [List.mem_singleton] at hb'; subst hb'; exact hb) (by simp) ?_
        simp only [allocPartialList, h]
  | expandAll =>
    exact hlist st.bundleIndices (by intro b hb; rw [mem_allocated_iff]; exact (mem_bundleIndices L st hI.inv b).1 hb) (nodup_bundleIndices L st hI.inv) h

theorem allocated_upds (dyn : Bool) : ∀ (l : List (Idx d × (D → D))) (A : Abs d D) (bj : Idx d), bj ∈ (A.upds dyn l).allocated → bj ∈ A.allocated ∨ ∃ e ∈ l, e.1 = bj
  | [], A, bj, h => Or.inl h
  | e :: l, A, bj, h => by
    rcases allocated_upds dyn l (A.upd dyn e.1 e.2) bj h with h | ⟨e', h1, h2⟩
    · rw [Abs.allocated_upd] at h
      rcases h with h | h
      · exact Or.inr ⟨e, List.mem_cons_self, h.symm⟩
      · exact Or.inl h
    · exact Or.inr ⟨e', List.mem_cons_of_mem _ h1, h2⟩

theorem MapReachable.spec {st : St k.backend D} (h : MapReachable k exp st) : RInv k.lawful k.dyn st ∧ Abs.Keeps k.dyn (k.init D).abs st.abs := by
  induction h with
  | init => exact ⟨k.init_rinv, .refl ..⟩
  | core op st st' _ h ih =>
    obtain ⟨a, b⟩ := coreStep_spec k.lawful k.dyn exp op st ih.1 st' h
    exact ⟨a, ih.2.trans b.keeps⟩
  | updates l st st' _ _ h ih =>
    obtain ⟨a, _, b⟩ := RInv.upds l st st' ih.1 h
    exact ⟨a, ih.2.trans b⟩

theorem keeps_valid {dyn : Bool} {A A' : Abs d D} (h : Abs.Keeps dyn A A') (i : Idx d) : A'.valid dyn i = A.valid dyn i := h.valid i

/-- all bundles of a reachable map are inside the map -/
theorem MapReachable.valid {st : St k.backend D} (h : MapReachable k exp st) : ∀ bi ∈ st.bundleIndices, st.valid k.dyn bi = true := by
  have key : ∀ {st : St k.backend D}, MapReachable k exp st → ∀ bi ∈ st.abs.allocated, st.abs.valid k.dyn bi = true := by
    intro st h
    induction h with
    | init => intro bi hb; rw [Kind.init_allocated] at hb; exact absurd hb (Set.notMem_empty _)
    | core op st st' hR h ih =>
      intro bi hb
      have hG := (coreStep_spec k.lawful k.dyn exp op st hR.spec.1 st' h).2
      rw [hG.valid]
      rcases coreStep_valid k.lawful k.dyn exp op st st' hR.spec.1 h bi hb with h | h
      · exact ih bi h
      · exact h
    | updates l st st' hR hl h ih =>
      intro bi hb
      obtain ⟨_, hA, hK⟩ := RInv.upds l st st' hR.spec.1 h
      rw [keeps_valid hK]
      rw [hA] at hb
      rcases allocated_upds k.dyn l _ bi hb with h | ⟨e, h1, h2⟩
      · exact ih bi h
      · rw [← h2]; exact hl e h1
  intro bi hb
  refine key h bi ?_
  rw [mem_allocated_iff]
  exact (mem_bundleIndices k.lawful st h.spec.1.inv bi).1 hb

end

section
variable {K : Type} [Field K] [LinearOrder K] [FloorRing K] {d : Nat}

theorem grid_reachable (g : Geo K d) (k : Kind d) (exp : Multiset (Pt K d) → Bool) : ∀ (ops : List (GridOp K d)) (st st' : St k.backend (Multiset (Pt K d))),
    MapReachable k exp st → gridRun g k.dyn exp ops st = some st' → MapReachable k exp st'
  | [], st, st', hR, h => by cases h; exact hR
  | op :: ops, st, st', hR, h => by
    simp only [gridRun] at h
    obtain ⟨st1, h1, h2⟩ := Option.bind_eq_some_iff.1 h
    refine grid_reachable g k exp ops st1 st' ?_ h2
    cases op with
    | insert pose cloud =>
      refine .updates _ st st1 hR ?_ h1
      intro e he
      obtain ⟨x, hx, rfl⟩ := List.mem_map.1 he
      obtain ⟨p, hp, hx'⟩ := (mem_collect_keys g (st.valid k.dyn) pose cloud x.1).1 (List.mem_map.2 ⟨x, hx, rfl⟩)
      show st.valid k.dyn x.1 = true
      rw [← hx']
      exact (List.mem_filter.1 hp).2
    | core op => exact .core op st st1 hR h1

theorem occ_reachable {W E : Type} [AddCommMonoid W] (fl : Flavour K d W E) (g : Geo K d) (k : Kind d) (defRay : Pt K d → Pt K d → List (Idx d)) (exp : Occ W E → Bool) :
    ∀ (ops : List (OccMapOp K d W E)) (st st' : St k.backend (Occ W E)), MapReachable k exp st → occRun fl g k.dyn defRay exp ops st = some st' → MapReachable k exp st'
  | [], st, st', hR, h => by cases h; exact hR
  | op :: ops, st, st', hR, h => by
    simp only [occRun] at h
    obtain ⟨st1, h1, h2⟩ := Option.bind_eq_some_iff.1 h
    refine occ_reachable fl g k defRay exp ops st1 st' ?_ h2
    have hI := hR.spec.1
    have fb : ∀ s', occInsert fl g k.dyn s' st = some st1 → MapReachable k exp st1 := by
      intro s' h
      rw [occInsert_eq k.lawful fl g k.dyn s' st hI] at h
      refine .updates _ st st1 hR ?_ h
      intro e he
      obtain ⟨x, hx, rfl⟩ := List.mem_map.1 he
      exact insertEffects_valid fl g (st.valid k.dyn) s' x hx
    cases op with
    | insert s => exact fb s h1
    | insertVisible s occ vm =>
      simp only [occStep] at h1
      cases occ with
      | none => exact fb _ h1
      | some occ =>
        cases vm with
        | none => exact fb _ h1
        | some vm =>
          obtain ⟨hs, hsub, h | h⟩ := occInsertVisible_spec k.lawful fl g k.dyn defRay s occ vm st st1 hI h1
          · refine .updates _ st st1 hR ?_ h
            intro e he
            obtain ⟨x, hx, rfl⟩ := List.mem_map.1 he
            obtain ⟨y, hy, rfl⟩ := List.mem_map.1 hx
            exact occCollect_valid fl g (st.valid k.dyn) s.pose s.cloud y (hsub.subset hy)
          · refine .updates _ st st1 hR ?_ h
            intro e he
            obtain ⟨x, hx, rfl⟩ := List.mem_map.1 he
            rcases List.mem_append.1 hx with hx | hx
            · obtain ⟨y, hy, rfl⟩ := List.mem_map.1 hx
              exact occCollect_valid fl g (st.valid k.dyn) s.pose s.cloud y (hsub.subset hy)
            · obtain ⟨y, hy, rfl⟩ := List.mem_map.1 hx
              exact insertFree_valid fl g (st.valid k.dyn) true s y hy
    | core op => exact .core op st st1 hR h1

end

/-! ### records of a storage -/
section
variable {d : Nat} {B : Backend d} {D K P : Type} [Inhabited D]

/-- the records of storage `c` -/
def records (st : St B D) (c : Nat) : List (Idx d × D) := (B.traverse (st.storage c)).map fun e => (e.1, st.heap e.2)

theorem storageBytes_eq (io : Io K P) (F : Fmt D) (st : St B D) (c : Nat) :
    storageBytes io F st.heap (st.storage c) = (records st c).flatMap (recCodec io d F).enc := by
  unfold storageBytes records
  rw [List.flatMap_map]

theorem mem_records (L : B.Lawful) (st : St B D) (hI : Inv L st) (c : Nat) (k : Idx d) (x : D) : (k, x) ∈ records st c ↔ st.content c k = some x := by
  unfold records content St.dist
  rw [List.mem_map]
  constructor
  · rintro ⟨⟨i, a⟩, h, e⟩
    cases e
    rw [(L.mem_traverse _ (hI.store c) _ _).1 h]; rfl
  · intro h
    obtain ⟨a, ha, hx⟩ := Option.map_eq_some_iff.1 h
    exact ⟨(k, a), (L.mem_traverse _ (hI.store c) _ _).2 ha, by rw [hx]⟩

theorem nodup_records (L : B.Lawful) (st : St B D) (hI : Inv L st) (c : Nat) : ((records st c).map Prod.fst).Nodup := by
  unfold records
  rw [List.map_map]
  exact L.nodup_traverse _ (hI.store c)

theorem recCodec_pos (io : Io K P) (hd : 0 < d) (F : Fmt D) : 0 < (recCodec io d F).size := by
  show 0 < (io.int.array d).size + F.codec.size
  rw [Codec.array_size]
  have := Nat.mul_pos hd io.int_pos
  omega

theorem idxCodec_pos (io : Io K P) (hd : 0 < d) : 0 < (io.int.array d).size := by
  rw [Codec.array_size]
  exact Nat.mul_pos hd io.int_pos

/-- with exact byte counts all records are read back -/
theorem readRecords_exact (io : Io K P) (hd : 0 < d) (F : Fmt D) (hF : F.reported = F.codec.size) (l : List (Idx d × D)) (hl : ∀ e ∈ l, (recCodec io d F).Ok e) :
    readRecords io d F (l.flatMap (recCodec io d F).enc) = l := by
  unfold readRecords
  have : (io.int.array d).size + F.reported = (recCodec io d F).size := by rw [hF]; rfl
  rw [this, Codec.length_flatMap]
  exact Codec.readLoop_exact _ (recCodec_pos io hd F) l _ hl (le_refl _)

/-- the header is read back -/
theorem readHeader_eq (io : Io K P) (hd : 0 < d) (h : Header K P d) (hp : io.pose.Ok h.pose) (hr : io.real.Ok h.resolution) (hs : ∀ a, h.size a < 2 ^ 64)
    (hm : ∀ a, -2147483648 ≤ h.minB a ∧ h.minB a ≤ 2147483647) (hi : ∀ i ∈ h.indices, ∀ a, -2147483648 ≤ i a ∧ i a ≤ 2147483647) :
    readHeader io d (headerBytes io h) = h := by
  have hok : (headCodec io d).Ok (h.pose, h.resolution, h.size, h.minB) :=
    ⟨hp, hr, Codec.array_ok _ _ _ fun a => io.nat_ok _ (hs a), Codec.array_ok _ _ _ fun a => io.int_ok _ (hm a).1 (hm a).2⟩
  have e1 : (headerBytes io h).take (headCodec io d).size = (headCodec io d).enc (h.pose, h.resolution, h.size, h.minB) := by
    unfold headerBytes; rw [← (headCodec io d).len (h.pose, h.resolution, h.size, h.minB)]; exact List.take_left
  have e2 : (headerBytes io h).drop (headCodec io d).size = h.indices.flatMap (io.int.array d).enc := by
    unfold headerBytes; rw [← (headCodec io d).len (h.pose, h.resolution, h.size, h.minB)]; exact List.drop_left
  have e3 : (headerBytes io h).length - (headCodec io d).size = h.indices.length * (io.int.array d).size := by
    unfold headerBytes
    rw [List.length_append, (headCodec io d).len, Codec.length_flatMap]
    omega
  have e4 : h.indices.length * (io.int.array d).size ≤ (headerBytes io h).length := by
    unfold headerBytes
    rw [List.length_append, Codec.length_flatMap]
    omega
  unfold readHeader
  simp only
  rw [e1, e2, e3, (headCodec io d).dec_enc _ hok,
    Codec.readLoop_exact _ (idxCodec_pos io hd) h.indices _ (fun i hi' => Codec.array_ok _ _ _ fun a => io.int_ok _ (hi i hi' a).1 (hi i hi' a).2) e4]

/-- A map is restored from its own records and bundle indices. -/
theorem rebuild_restores (L : B.Lawful) (dyn : Bool) (st : St B D) (hI : RInv L dyn st) (freshS : Nat → B.Store Nat) (freshB : B.Store Bundle)
    (recs : Nat → List (Idx d × D)) (junk : Nat → D) (hrecs : ∀ c, c < 2 ^ d → recs c = records st c)
    (hF : ∀ c, L.Inv (freshS c)) (hE : ∀ c k, B.look (freshS c) k = none) (hFB : L.Inv freshB) (hEB : ∀ bi, B.look freshB bi = none)
    (hi : ∀ bi ∈ st.bundleIndices, B.ok freshB bi = true ∧ ∀ c, c < 2 ^ d → B.ok (freshS c) (generateIndex bi c) = true)
    (hrng : dyn = true → ∀ bi, B.ok freshB bi = true → ∀ a, -2147483648 ≤ bi a ∧ bi a ≤ 2147483647) :
    ∃ st' : St B D, rebuild freshS freshB recs st.bundleIndices st.minB st.maxB junk = some st' ∧ RInv L dyn st' ∧ Spec.Restored st st' ∧
      (∀ bi, B.ok st'.bundles bi = B.ok freshB bi) ∧ (∀ c k, B.ok (st'.storage c) k = B.ok (freshS c) k) ∧
      (∀ bi b, st'.bundle bi = some b → b.expand = true) := by
  have hmem := mem_bundleIndices L st hI.inv
  have hrk : ∀ c, c < 2 ^ d → ((recs c).map Prod.fst).Nodup ∧ ∀ e ∈ recs c, B.ok (freshS c) e.1 = true := by
    intro c hc
    rw [hrecs c hc]
    refine ⟨nodup_records L st hI.inv c, ?_⟩
    rintro ⟨k, x⟩ he
    have h1 := (mem_records L st hI.inv c k x).1 he
    have h2 : (st.abs.content c k).isSome = true := by show (st.content c k).isSome = true; rw [h1]; rfl
    obtain ⟨_, bi, hb, e⟩ := (hI.ainv.used c k).1 h2
    have := (hi bi ((hmem bi).2 ((mem_allocated_iff st bi).1 hb))).2 c hc
    rw [e] at this; exact this
  obtain ⟨st', y1, y2, y3, y4, y5, y6, y7, y8, y9, y10, y11⟩ := rebuild_spec L freshS freshB recs st.bundleIndices st.minB st.maxB junk hF hE hFB hEB hrk
    (nodup_bundleIndices L st hI.inv) hi
  have hcont : ∀ c k, st'.content c k = st.content c k := by
    intro c k
    by_cases hc : c < 2 ^ d
    · have : ∀ x, st'.content c k = some x ↔ st.content c k = some x := by
        intro x; rw [y8 c hc, hrecs c hc, mem_records L st hI.inv]
      cases h : st.content c k with
      | none =>
        cases h' : st'.content c k with
        | none => rfl
        | some x => rw [(this x).1 h'] at h; cases h
      | some x => exact (this x).2 h
    · rw [y9 c hc]
      cases h : st.content c k with
      | none => rfl
      | some x =>
        have h2 : (st.abs.content c k).isSome = true := by show (st.content c k).isSome = true; rw [h]; rfl
        exact absurd ((hI.ainv.used c k).1 h2).1 hc
  have hbun : ∀ bi, (st'.bundle bi).isSome = true ↔ (st.bundle bi).isSome = true := by
    intro bi
    by_cases hb : bi ∈ st.bundleIndices
    · obtain ⟨b, h1, _⟩ := y11 bi hb
      rw [h1]; simp [(hmem bi).1 hb]
    · rw [y10 bi hb]
      have := mt (hmem bi).2 hb
      simp [this]
  have halloc : st'.abs.allocated = st.abs.allocated := by
    ext bi; rw [mem_allocated_iff, mem_allocated_iff]; exact hbun bi
  have hexp : ∀ bi b, st'.bundle bi = some b → b.expand = true := by
    intro bi b hb
    by_cases hm : bi ∈ st.bundleIndices
    · obtain ⟨b', h1, h2, _⟩ := y11 bi hm
      rw [h1] at hb; cases hb; exact h2
    · rw [y10 bi hm] at hb; cases hb
  have hinv : Inv L st' := by
    refine ⟨⟨y2.store, y2.fresh, y2.inj⟩, y3, ?_⟩
    intro bi b hb c hc
    have hm : bi ∈ st.bundleIndices := by
      by_contra hm
      rw [y10 bi hm] at hb; cases hb
    obtain ⟨b', h1, _, h3⟩ := y11 bi hm
    rw [h1] at hb; cases hb
    have h2 : (st'.content c (generateIndex bi c)).isSome = true := by
      rw [hcont]
      exact (hI.ainv.used c _).2 ⟨hc, bi, (mem_allocated_iff st bi).2 ((hmem bi).1 hm), rfl⟩
    obtain ⟨x, hx⟩ := Option.isSome_iff_exists.1 h2
    obtain ⟨a, ha, _⟩ := Option.map_eq_some_iff.1 hx
    exact ⟨a, by rw [h3 c, if_pos hc]; exact ha, ha⟩
  have hR : RInv L dyn st' := by
    refine ⟨hinv, ⟨?_, ?_, ?_⟩, ?_, ?_⟩
    · intro c k
      show (st'.content c k).isSome = true ↔ _
      rw [hcont, halloc]
      exact hI.ainv.used c k
    · intro hdyn
      rw [halloc]
      show Spec.TightBounds _ st'.minB st'.maxB
      rw [y4, y5]
      exact hI.ainv.bounds hdyn
    · intro hdyn
      rw [halloc]; exact hI.ainv.range hdyn
    · intro hdyn bi hb
      exact hrng hdyn bi (by rw [← y6]; exact hb)
    · intro bi hb
      have hb' : (st'.bundle bi).map Bundle.expand = some false := hb
      obtain ⟨b, h1, h2⟩ := Option.map_eq_some_iff.1 hb'
      rw [hexp bi b h1] at h2; cases h2
  refine ⟨st', y1, hR, ⟨?_, hcont, ?_, y4, y5⟩, y6, y7, hexp⟩
  · intro bi
    rw [mem_bundleIndices L st' hinv, hmem]; exact hbun bi
  · intro bi c hc
    have key : ∀ (s : St B D), Inv L s → s.binContent bi c = if (s.bundle bi).isSome then s.content c (generateIndex bi c) else none := by
      intro s hs
      unfold binContent content
      cases hb : s.bundle bi with
      | none => rfl
      | some b =>
        obtain ⟨a, h1, h2⟩ := hs.complete bi b hb c hc
        simp [h1, h2]
    rw [key st' hinv, key st hI.inv, hcont]
    by_cases h : (st.bundle bi).isSome = true
    · rw [if_pos h, if_pos ((hbun bi).2 h)]
    · rw [if_neg h, if_neg (mt (hbun bi).1 h)]

end

/-! ### threads -/
namespace Threads

theorem step_other (ok : Nat → Bool) (s : Threads) (c j : Nat) (h : j ≠ c) : (s.step ok c).phase j = s.phase j ∧ (s.step ok c).ran j = s.ran j := by
  unfold step
  split <;> simp [Function.update_of_ne h]

theorem run_snoc (ok : Nat → Bool) (l : List Nat) (c : Nat) : run ok (l ++ [c]) = (run ok l).step ok c := by
  unfold run; rw [List.foldl_append]; rfl

theorem run_append (ok : Nat → Bool) (l l' : List Nat) : run ok (l ++ l') = l'.foldl (step ok) (run ok l) := by
  unfold run; rw [List.foldl_append]

/-- every thread that succeeds keeps the flag -/
structure AllGood (s : Threads) : Prop where
  flag : s.flag = true
  phase : ∀ c, s.phase c ≠ .result false
  ran : ∀ c, s.phase c = .result true ∨ s.phase c = .done → s.ran c = true

theorem AllGood.step {ok : Nat → Bool} {s : Threads} (h : AllGood s) (c : Nat) (hc : ok c = true) : AllGood (s.step ok c) := by
  have hfl := h.flag
  unfold Threads.step
  split
  · refine ⟨hfl, ?_, ?_⟩
    · intro j
      by_cases hj : j = c
      · subst hj; simp [hfl]
      · simpa [Function.update_of_ne hj] using h.phase j
    · intro j
      by_cases hj : j = c
      · subst hj; simp [hfl]
      · simpa [Function.update_of_ne hj] using h.ran j
  · refine ⟨hfl, ?_, ?_⟩
    · intro j
      by_cases hj : j = c
      · subst hj; simp [hc]
      · simpa [Function.update_of_ne hj] using h.phase j
    · intro j
      by_cases hj : j = c
      · subst hj; simp
      · simpa [Function.update_of_ne hj] using h.ran j
  · rename_i v hv
    have hvt : v = true := by
      cases v with
      | true => rfl
      | false => exact absurd hv (h.phase c)
    subst hvt
    refine ⟨rfl, ?_, ?_⟩
    · intro j
      by_cases hj : j = c
      · subst hj; simp
      · simpa [Function.update_of_ne hj] using h.phase j
    · intro j
      by_cases hj : j = c
      · subst hj; intro _; exact h.ran j (Or.inl hv)
      · simpa [Function.update_of_ne hj] using h.ran j
  · exact h

theorem AllGood.run {ok : Nat → Bool} (sched : List Nat) (h : ∀ c ∈ sched, ok c = true) : AllGood (run ok sched) := by
  have : ∀ (l : List Nat) (s : Threads), AllGood s → (∀ c ∈ l, ok c = true) → AllGood (l.foldl (Threads.step ok) s) := by
    intro l
    induction l with
    | nil => intro s hs _; exact hs
    | cons c l ih => intro s hs hl; exact ih _ (hs.step c (hl c List.mem_cons_self)) fun j hj => hl j (List.mem_cons_of_mem _ hj)
  refine this sched Threads.init ⟨rfl, ?_, ?_⟩ h
  · intro c; simp [Threads.init]
  · intro c; simp [Threads.init]

/-- three steps finish a thread and leave the others alone -/
theorem three_done (ok : Nat → Bool) (s : Threads) (c : Nat) : (((s.step ok c).step ok c).step ok c).phase c = .done := by
  cases h : s.phase c with
  | start =>
    cases hf : s.flag <;> simp [step, h, hf]
  | checked => simp [step, h]
  | result v => simp [step, h]
  | done => simp [step, h]

end Threads

/-! ### directories -/
section

theorem prefix_append_cases {α : Type} {p a b : List α} (h : p <+: a ++ b) : p <+: a ∨ ∃ q, p = a ++ q ∧ q <+: b := by
  rcases List.prefix_or_prefix_of_prefix h (List.prefix_append a b) with h1 | ⟨q, rfl⟩
  · exact Or.inl h1
  · exact Or.inr ⟨q, rfl, (List.prefix_append_right_inj a).1 h⟩

theorem runEffs_append (dir : Option Dir) (l l' : List Eff) : runEffs dir (l ++ l') = runEffs (runEffs dir l) l' := by
  unfold runEffs; rw [List.foldl_append]

/-- the effect on a single file -/
def fileEff (f : FileName) (o : Option Bytes) : Eff → Option Bytes
  | .rm g => if g = f then none else o
  | .rmdir => none
  | .mkdir => o
  | .create g => if g = f then some [] else o
  | .append g bs => if g = f then o.map (· ++ bs) else o

/-- effects that do not touch the directory itself -/
def Eff.inside : Eff → Prop
  | .rmdir => False
  | .mkdir => False
  | _ => True

theorem runEffs_inside : ∀ (l : List Eff) (dir : Dir), (∀ e ∈ l, e.inside) → runEffs (some dir) l = some fun f => l.foldl (fileEff f) (dir f)
  | [], _, _ => rfl
  | e :: l, dir, h => by
    have hl := fun x hx => h x (List.mem_cons_of_mem _ hx)
    have he := h e List.mem_cons_self
    show runEffs (Eff.apply (some dir) e) l = _
    have : Eff.apply (some dir) e = some fun f => fileEff f (dir f) e := by
      cases e with
      | rm g =>
        show some _ = some _
        congr 1; funext f
        by_cases hf : f = g
        · subst hf; simp [fileEff]
        · simp [fileEff, Function.update_of_ne hf, Ne.symm hf]
      | rmdir => exact he.elim
      | mkdir => exact he.elim
      | create g =>
        show some _ = some _
        congr 1; funext f
        by_cases hf : f = g
        · subst hf; simp [fileEff]
        · simp [fileEff, Function.update_of_ne hf, Ne.symm hf]
      | append g bs =>
        show some _ = some _
        congr 1; funext f
        by_cases hf : f = g
        · subst hf; simp [fileEff]
        · simp [fileEff, Function.update_of_ne hf, Ne.symm hf]
    rw [this, runEffs_inside l _ hl]
    rfl

theorem fold_appends (f : FileName) : ∀ (bl : List Bytes) (bs : Bytes), (bl.map (Eff.append f)).foldl (fileEff f) (some bs) = some (bs ++ bl.flatten)
  | [], bs => by simp
  | b :: bl, bs => by
    rw [List.map_cons, List.foldl_cons]
    have : fileEff f (some bs) (.append f b) = some (bs ++ b) := by simp [fileEff]
    rw [this, fold_appends f bl]
    simp

theorem fold_append_other (f g : FileName) (h : g ≠ f) (o : Option Bytes) : ∀ bl : List Bytes, (bl.map (Eff.append g)).foldl (fileEff f) o = o
  | [] => rfl
  | b :: bl => by
    rw [List.map_cons, List.foldl_cons]
    have : fileEff f o (.append g b) = o := by simp [fileEff, h]
    rw [this, fold_append_other f g h o bl]

theorem run_removal_aux (old : Option Dir) (r : List FileName) : runEffs old (if old.isSome then r.map .rm ++ [.rmdir] else []) = none := by
  cases old with
  | none => simp [runEffs]
  | some dir =>
    rw [if_pos (show (some dir).isSome = true from rfl), runEffs_append]
    generalize runEffs (some dir) (r.map .rm) = x
    show Eff.apply x .rmdir = none
    cases x <;> rfl

namespace SaveTrace
variable {d : Nat} {old : Option Dir} {hb : Bytes} {sb : Nat → Bytes} (t : SaveTrace d old hb sb)

theorem run_removal : runEffs old t.removal = none := run_removal_aux old t.removed

/-- the directory after the header has been written -/
def headDir (hb : Bytes) : Dir := fun f => if f = .header then some hb else none

theorem run_header : runEffs none t.headerPart = some (headDir hb) := by
  unfold headerPart
  show runEffs (some fun _ => none) (.create .header :: t.headerBlocks.map (.append .header)) = _
  rw [runEffs_inside]
  · congr 1
    funext f
    rw [List.foldl_cons]
    by_cases hf : f = .header
    · subst hf
      have : fileEff .header none (.create .header) = some [] := by simp [fileEff]
      rw [this, fold_appends, t.header_eq]
      simp [headDir]
    · have : fileEff f none (.create .header) = none := by simp [fileEff, Ne.symm hf]
      rw [this, fold_append_other f .header (Ne.symm hf)]
      simp [headDir, hf]
  · intro e he
    rcases List.mem_cons.1 he with rfl | he
    · trivial
    · obtain ⟨b, _, rfl⟩ := List.mem_map.1 he; trivial

/-- what a thread does -/
theorem thread_eff (e : Nat × Eff) (he : e ∈ t.threads) : e.2 = .create (.store e.1) ∨ ∃ bs, e.2 = .append (.store e.1) bs := by
  have h1 : e.2 ∈ (t.threads.filter fun x => decide (x.1 = e.1)).map Prod.snd :=
    List.mem_map.2 ⟨e, List.mem_filter.2 ⟨he, by simp⟩, rfl⟩
  rw [t.thread_eq e.1 (t.threads_lt e he)] at h1
  rcases List.mem_cons.1 h1 with h | h
  · exact Or.inl h
  · obtain ⟨bs, _, hbs⟩ := List.mem_map.1 h
    exact Or.inr ⟨bs, hbs.symm⟩

theorem fold_threads (f : FileName) : ∀ (q : List (Nat × Eff)) (o : Option Bytes), (∀ e ∈ q, e ∈ t.threads) →
    (q.map Prod.snd).foldl (fileEff f) o =
      match f with
      | .header => o
      | .other _ => o
      | .store c => ((q.filter fun e => decide (e.1 = c)).map Prod.snd).foldl (fileEff f) o
  | [], o, _ => by cases f <;> rfl
  | e :: q, o, h => by
    have hq := fun x hx => h x (List.mem_cons_of_mem _ hx)
    have he := t.thread_eff e (h e List.mem_cons_self)
    rw [List.map_cons, List.foldl_cons, fold_threads f q _ hq]
    cases f with
    | header =>
      simp only
      rcases he with he | ⟨bs, he⟩ <;> simp [he, fileEff]
    | other _ =>
      simp only
      rcases he with he | ⟨bs, he⟩ <;> simp [he, fileEff]
    | store c =>
      simp only
      by_cases hc : e.1 = c
      · rw [List.filter_cons_of_pos (by simpa using hc), List.map_cons, List.foldl_cons]
      · rw [List.filter_cons_of_neg (by simpa using hc)]
        have : fileEff (.store c) o e.2 = o := by
          rcases he with he | ⟨bs, he⟩ <;> simp [he, fileEff, hc]
        rw [this]

/-- the directory when the threads have performed the steps `q` -/
theorem run_threads (q : List (Nat × Eff)) (hq : ∀ e ∈ q, e ∈ t.threads) :
    ∃ dir, runEffs (some (headDir hb)) (q.map Prod.snd) = some dir ∧ dir .header = some hb ∧
      ∀ c, dir (.store c) = ((q.filter fun e => decide (e.1 = c)).map Prod.snd).foldl (fileEff (.store c)) none := by
  refine ⟨_, runEffs_inside _ _ ?_, ?_, ?_⟩
  · intro e he
    obtain ⟨x, hx, rfl⟩ := List.mem_map.1 he
    rcases t.thread_eff x (hq x hx) with h | ⟨bs, h⟩ <;> rw [h] <;> trivial
  · rw [t.fold_threads .header q _ hq]; simp [headDir]
  · intro c
    rw [t.fold_threads (.store c) q _ hq]
    simp [headDir]

/-- the directory after a complete save -/
theorem run_all : ∃ dir, runEffs old t.effects = some dir ∧ dir .header = some hb ∧ ∀ c, c < 2 ^ d → dir (.store c) = some (sb c) := by
  obtain ⟨dir, h1, h2, h3⟩ := t.run_threads t.threads fun _ h => h
  refine ⟨dir, ?_, h2, ?_⟩
  · unfold effects
    rw [runEffs_append, runEffs_append, t.run_removal, t.run_header, h1]
  · intro c hc
    rw [h3 c, t.thread_eq c hc, List.foldl_cons]
    have : fileEff (.store c) none (.create (.store c)) = some [] := by simp [fileEff]
    rw [this, fold_appends, t.store_eq c hc]
    rfl

end SaveTrace
end

/-! ### loading -/
section
variable {d : Nat} {K P D M : Type} (io : Io K P) (F : Fmt D) (rb : Header K P d → (Nat → List (Idx d × D)) → Option M)

/-- what a rebuilt map means for the caller of `load` -/
def LoadResult.of : Option M → LoadResult M
  | none => .undefined
  | some m => .loaded m

theorem joined_ran {canOpen : Nat → Bool} {sched : List Nat} {n : Nat} (hopen : ∀ c ∈ sched, canOpen c = true)
    (hj : (Threads.run canOpen sched).Joined n) : (Threads.run canOpen sched).flag = true ∧ ∀ c, c < n → (Threads.run canOpen sched).ran c = true := by
  have h := Threads.AllGood.run sched hopen
  exact ⟨h.flag, fun c hc => h.ran c (Or.inr (hj c hc))⟩

theorem loadDir_eq (canOpen : Nat → Bool) (sched : List Nat) (dir : Dir) (hb : Bytes) (hh : dir .header = some hb)
    (hs : ∀ c, c < 2 ^ d → (dir (.store c)).isSome = true) (hopen : ∀ c ∈ sched, canOpen c = true) (hj : (Threads.run canOpen sched).Joined (2 ^ d)) :
    loadDir io d F rb canOpen sched (some dir) =
      LoadResult.of (rb (readHeader io d hb) fun c => if canOpen c then readRecords io d F ((dir (.store c)).getD []) else []) := by
  obtain ⟨h1, h2⟩ := joined_ran hopen hj
  have e1 : ((List.range (twoPow d)).all fun c => (dir (.store c)).isSome) = true := by
    rw [List.all_eq_true]; intro c hc; rw [List.mem_range, twoPow_eq] at hc; exact hs c hc
  have e2 : ((List.range (twoPow d)).all (Threads.run canOpen sched).ran) = true := by
    rw [List.all_eq_true]; intro c hc; rw [List.mem_range, twoPow_eq] at hc; exact h2 c hc
  unfold loadDir loadStores
  simp only [e1, if_true, hh, h1, e2]
  cases rb _ _ <;> rfl

/-- a missing file is noticed -/
theorem loadDir_fails (canOpen : Nat → Bool) (sched : List Nat) (dir : Dir) (h : dir .header = none ∨ ∃ c, c < 2 ^ d ∧ dir (.store c) = none) :
    loadDir io d F rb canOpen sched (some dir) = .fails := by
  unfold loadDir
  rcases h with h | ⟨c, hc, h⟩
  · simp only [h]; split <;> rfl
  · have : ¬ ((List.range (twoPow d)).all fun c => (dir (.store c)).isSome) = true := by
      rw [List.all_eq_true]
      intro hall
      have := hall c (by rw [List.mem_range, twoPow_eq]; exact hc)
      rw [h] at this; cases this
    simp only [this]
    rfl

/-- a joined thread has been scheduled, so that it could open its file if all scheduled threads could -/
theorem joined_mem {ok : Nat → Bool} {sched : List Nat} {n c : Nat} (hj : (Threads.run ok sched).Joined n) (hc : c < n) : c ∈ sched := by
  by_contra h
  have : ∀ (l : List Nat) (s : Threads), c ∉ l → (l.foldl (Threads.step ok) s).phase c = s.phase c := by
    intro l
    induction l with
    | nil => intro s _; rfl
    | cons x l ih =>
      intro s hx
      rw [List.mem_cons, not_or] at hx
      rw [List.foldl_cons, ih _ hx.2, (Threads.step_other ok s x c hx.1).1]
  have h1 := hj c hc
  unfold Threads.run at h1
  rw [this sched _ h] at h1
  cases h1

end

/-! ### dynamic maps -/
section
variable {d : Nat} {K P D : Type} [Inhabited D] {g : Nat → Nat} {g' : Nat} {exp : D → Bool}

theorem octree_look_empty {V : Type} (n : Nat) (k : Idx d) : (octreeBackend d).look (Octree.Tree.empty n : Octree.Tree d V) k = none := by
  unfold Backend.look; split <;> rfl

theorem array_look_fresh {V : Type} (size : Fin d → Nat) (lo k : Idx d) : (arrayBackend d).look (Arr.fresh size lo : Arr d V) k = none := by
  unfold Backend.look; split <;> rfl

/-- indices of allocated bundles, their bounds and their distribution indices are in range -/
theorem dyn_range {st : St (octreeBackend d) D} (hR : RInv (octreeLawful d) true st) (bi : Idx d) (hb : bi ∈ st.bundleIndices) :
    Spec.InRange bi ∧ ∀ c, c < 2 ^ d → Spec.InRange (generateIndex bi c) := by
  have hI : RInv (octreeLawful d) true st := hR
  have h1 := (mem_bundleIndices (octreeLawful d) st hI.inv bi).1 hb
  obtain ⟨b, hb'⟩ := Option.isSome_iff_exists.1 h1
  have hin : Spec.InRange bi := by
    unfold St.bundle Backend.look at hb'
    split at hb'
    · rename_i h; exact of_decide_eq_true h
    · cases hb'
  refine ⟨hin, fun c _ a => ?_⟩
  have hg : generateIndex bi c a = if c.testBit a.1 then (bi a + 1) / 2 else bi a / 2 := getIndexInner_eq _ _ _
  have := hin a
  rw [hg]
  split <;> omega

theorem dyn_bounds {st : St (octreeBackend d) D} (hR : RInv (octreeLawful d) true st) (hne : st.bundleIndices ≠ []) :
    ∀ a, -32768 ≤ st.minB a ∧ st.minB a ≤ st.maxB a ∧ st.maxB a ≤ 32767 := by
  intro a
  have hI : RInv (octreeLawful d) true st := hR
  have hmem := mem_bundleIndices (octreeLawful d) st hI.inv
  obtain ⟨bi, hbi⟩ := List.exists_mem_of_ne_nil _ hne
  have hal : bi ∈ st.abs.allocated := (mem_allocated_iff st bi).2 ((hmem bi).1 hbi)
  rcases hI.ainv.bounds rfl with ⟨e, _⟩ | ⟨_, hb⟩
  · rw [e] at hal; exact absurd hal (Set.notMem_empty _)
  · obtain ⟨h1, h2⟩ := hb a
    obtain ⟨⟨i, hi, e1⟩, h1'⟩ := h1
    obtain ⟨⟨j, hj, e2⟩, _⟩ := h2
    have e1' : i a = st.minB a := e1
    have e2' : j a = st.maxB a := e2
    have r1 := (dyn_range hR i ((hmem i).2 ((mem_allocated_iff st i).1 hi))).1 a
    have r2 := (dyn_range hR j ((hmem j).2 ((mem_allocated_iff st j).1 hj))).1 a
    have r3 : st.minB a ≤ j a := h1' ⟨j, hj, rfl⟩
    omega

/-- the header of a non-empty reachable dynamic map is defined -/
theorem dynHeader_eq {m : MapObj (octreeBackend d) K P D} (hR : RInv (octreeLawful d) true m.st) (hne : m.st.bundleIndices ≠ []) :
    dynHeader m = some { pose := m.pose, resolution := m.resolution, size := fun a => (m.st.maxB a - m.st.minB a).toNat, minB := m.st.minB, indices := m.st.bundleIndices } := by
  have hb := dyn_bounds hR hne
  unfold dynHeader
  rw [if_pos]
  · congr 2
    funext a
    have := hb a
    have e : (m.st.maxB a - m.st.minB a) % 2 ^ 64 = m.st.maxB a - m.st.minB a := Int.emod_eq_of_lt (by omega) (by omega)
    rw [e]
  · intro a
    have := hb a
    unfold intSub
    rw [if_pos (by omega)]; rfl

/-- the header that is read back -/
theorem dyn_readHeader (hd : 0 < d) (io : Io K P) {m : MapObj (octreeBackend d) K P D} (hR : RInv (octreeLawful d) true m.st) (hne : m.st.bundleIndices ≠ [])
    (hp : io.pose.Ok m.pose) (hr : io.real.Ok m.resolution) (h : Header K P d) (hh : dynHeader m = some h) :
    readHeader io d (headerBytes io h) = h ∧ h.pose = m.pose ∧ h.resolution = m.resolution ∧ h.minB = m.st.minB ∧ h.indices = m.st.bundleIndices ∧
      (fun a => h.minB a + (h.size a : Int)) = m.st.maxB := by
  have hb := dyn_bounds hR hne
  rw [dynHeader_eq hR hne] at hh
  cases hh
  refine ⟨readHeader_eq io hd _ hp hr ?_ ?_ ?_, rfl, rfl, rfl, rfl, ?_⟩
  · intro a
    have := hb a
    show (m.st.maxB a - m.st.minB a).toNat < _
    omega
  · intro a
    have := hb a
    show -2147483648 ≤ m.st.minB a ∧ m.st.minB a ≤ _
    omega
  · intro i hi a
    have := (dyn_range hR i hi).1 a
    omega
  · funext a
    have := hb a
    show m.st.minB a + ((m.st.maxB a - m.st.minB a).toNat : Int) = _
    omega

/-- loading sublists of the records (e.g. from truncated files): the bundles are those of the map, the distributions those that were read -/
theorem rebuildDynamic_sub {m : MapObj (octreeBackend d) K P D} (hR : RInv (octreeLawful d) true m.st) (f : Nat → Nat) (f' : Nat) (junk : Nat → D)
    (h : Header K P d) (hi : h.indices = m.st.bundleIndices) (recs : Nat → List (Idx d × D)) (hrecs : ∀ c, c < 2 ^ d → (recs c).Sublist (records m.st c)) :
    ∃ m', rebuildDynamic f f' junk h recs = some m' ∧ m'.pose = h.pose ∧ m'.resolution = h.resolution ∧
      (∀ bi, bi ∈ m'.st.bundleIndices ↔ bi ∈ m.st.bundleIndices) ∧
      ∀ c, c < 2 ^ d → ∀ k x, m'.st.content c k = some x ↔ (k, x) ∈ recs c := by
  have hI : RInv (octreeLawful d) true m.st := hR
  have hmem := mem_bundleIndices (octreeLawful d) m.st hI.inv
  obtain ⟨st', y1, y2, y3, y4, y5, y6, y7, y8, y9, y10, y11⟩ := rebuild_spec (octreeLawful d) (fun c => Octree.Tree.empty (f c)) (Octree.Tree.empty f') recs h.indices
    h.minB (fun a => h.minB a + (h.size a : Int)) junk (fun c => Octree.TInv.empty _) (fun c k => octree_look_empty _ k) (Octree.TInv.empty _) (fun k => octree_look_empty _ k)
    (by
      intro c hc
      refine ⟨((hrecs c hc).map _).nodup (nodup_records (octreeLawful d) m.st hI.inv c), ?_⟩
      rintro ⟨k, x⟩ he
      have h1 := (mem_records (octreeLawful d) m.st hI.inv c k x).1 ((hrecs c hc).subset he)
      have h2 : (m.st.abs.content c k).isSome = true := by show (m.st.content c k).isSome = true; rw [h1]; rfl
      obtain ⟨_, bi, hb, e⟩ := (hI.ainv.used c k).1 h2
      have := (dyn_range hR bi ((hmem bi).2 ((mem_allocated_iff m.st bi).1 hb))).2 c hc
      rw [e] at this
      exact decide_eq_true this)
    (by rw [hi]; exact nodup_bundleIndices _ m.st hI.inv)
    (by
      intro bi hb
      rw [hi] at hb
      have := dyn_range hR bi hb
      exact ⟨decide_eq_true this.1, fun c hc => decide_eq_true (this.2 c hc)⟩)
  refine ⟨⟨h.pose, h.resolution, st'⟩, ?_, rfl, rfl, ?_, fun c hc => y8 c hc⟩
  · unfold rebuildDynamic; rw [y1]; rfl
  · intro bi
    have e1 : bi ∈ st'.bundleIndices ↔ (st'.bundle bi).isSome = true := by
      unfold St.bundleIndices St.bundle
      rw [List.mem_map]
      constructor
      · rintro ⟨⟨i, b⟩, hb, rfl⟩
        rw [((octreeLawful d).mem_traverse _ y3 i b).1 hb]; rfl
      · intro hb
        obtain ⟨b, hb⟩ := Option.isSome_iff_exists.1 hb
        exact ⟨(bi, b), ((octreeLawful d).mem_traverse _ y3 bi b).2 hb, rfl⟩
    show bi ∈ st'.bundleIndices ↔ _
    rw [e1, ← hi]
    constructor
    · intro hs
      by_contra hn
      rw [y10 bi hn] at hs; cases hs
    · intro hb
      obtain ⟨b, hb', _⟩ := y11 bi hb
      rw [hb']; rfl

theorem rebuildDynamic_restores {m : MapObj (octreeBackend d) K P D} (hR : RInv (octreeLawful d) true m.st) (f : Nat → Nat) (f' : Nat) (junk : Nat → D)
    (h : Header K P d) (hi : h.indices = m.st.bundleIndices) (hmin : h.minB = m.st.minB) (hmax : (fun a => h.minB a + (h.size a : Int)) = m.st.maxB)
    (recs : Nat → List (Idx d × D)) (hrecs : ∀ c, c < 2 ^ d → recs c = records m.st c) :
    ∃ m', rebuildDynamic f f' junk h recs = some m' ∧ m'.pose = h.pose ∧ m'.resolution = h.resolution ∧ RInv (octreeLawful d) true m'.st ∧
      Spec.Restored m.st m'.st ∧ (∀ bi b, m'.st.bundle bi = some b → b.expand = true) := by
  have hI : RInv (octreeLawful d) true m.st := hR
  obtain ⟨st', y1, y2, y3, _, _, y6⟩ := rebuild_restores (octreeLawful d) true m.st hI (fun c => Octree.Tree.empty (f c)) (Octree.Tree.empty f') recs junk hrecs
    (fun c => Octree.TInv.empty _) (fun c k => octree_look_empty _ k) (Octree.TInv.empty _) (fun k => octree_look_empty _ k)
    (by
      intro bi hb
      have := dyn_range hR bi hb
      exact ⟨decide_eq_true this.1, fun c hc => decide_eq_true (this.2 c hc)⟩)
    (by
      intro _ bi hb a
      have : Spec.InRange bi := of_decide_eq_true hb
      have := this a
      omega)
  refine ⟨⟨h.pose, h.resolution, st'⟩, ?_, rfl, rfl, y2, y3, y6⟩
  unfold rebuildDynamic
  rw [hi, hmax, hmin, y1]
  rfl

end
end Ndt
