import Verif.Props.Serial

/-! Property theorems C32, C33, C35–C37: weighted maps, static maps, worker threads and crashes. -/

namespace Ndt
open St

/-! ### C32: weighted occupancy maps -/
section
variable {d : Nat} {K P W E : Type}

/-- size of a record in the file of a weighted occupancy map -/
def weightedRecord (io : Io K P) (d : Nat) (N : Codec W) (C : Codec (Multiset E)) : Nat := (io.int.array d).size + (N.size + C.size)

/-- **C32** (partial): exactly the first ⌈n·R / (R + 8)⌉ of `n` records of `R` bytes are read back, because the reader reports 8 bytes more per record than it consumes. -/
theorem C32_records_read_partial (io : Io K P) (N : Codec W) (C : Codec (Multiset E)) (l : List (Idx d × Occ W E))
    (hl : ∀ e ∈ l, (recCodec io d (weightedFmt 8 N C)).Ok e) :
    readRecords io d (weightedFmt 8 N C) (l.flatMap (recCodec io d (weightedFmt 8 N C)).enc) =
      l.take ((l.length * weightedRecord io d N C + (weightedRecord io d N C + 8) - 1) / (weightedRecord io d N C + 8)) := by
  have e1 : (recCodec io d (weightedFmt 8 N C)).size = weightedRecord io d N C := rfl
  have e2 : (io.int.array d).size + (weightedFmt 8 N C).reported = weightedRecord io d N C + 8 := by
    show (io.int.array d).size + (8 + N.size + C.size) = (io.int.array d).size + (N.size + C.size) + 8
    omega
  unfold readRecords
  rw [e2, Codec.length_flatMap, Codec.readLoop_eq _ _ (by omega) l _ _ hl (le_refl _), e1]
  rw [e1]
  exact Nat.mul_le_mul_left _ (by omega)

/-- **C32** (partial): a storage file with `n` records of `R` bytes is read back completely iff `8 n < R + 8`. -/
theorem C32_lossless_iff_partial (io : Io K P) (N : Codec W) (C : Codec (Multiset E)) (l : List (Idx d × Occ W E))
    (hl : ∀ e ∈ l, (recCodec io d (weightedFmt 8 N C)).Ok e) :
    readRecords io d (weightedFmt 8 N C) (l.flatMap (recCodec io d (weightedFmt 8 N C)).enc) = l ↔ 8 * l.length < weightedRecord io d N C + 8 := by
  rw [C32_records_read_partial io N C l hl, List.take_eq_self_iff, Nat.le_div_iff_mul_le (by omega), Nat.mul_add]
  omega

end

section
variable {d : Nat} {K P W E : Type} [AddCommMonoid W] {g : Nat → Nat} {g' : Nat} {exp : Occ W E → Bool}

/-- **C32 refuted** (for every large map): if some storage of a reachable weighted occupancy map holds `n` records of `R` bytes with `8 n ≥ R + 8`, then `load` after `save` succeeds but the loaded map lacks a
distribution, for every execution of `save` and every schedule of `load`. -/
theorem C32_weighted_loss_refuted (hd : 0 < d) (m : MapObj (octreeBackend d) K P (Occ W E)) (hR : MapReachable (.dynamic g g') exp m.st) (hne : m.st.bundleIndices ≠ [])
    (io : Io K P) (N : Codec W) (C : Codec (Multiset E)) (hok : Storable io (weightedFmt 8 N C) m) (h : Header K P d) (hh : dynHeader m = some h)
    (c : Nat) (hc : c < 2 ^ d) (hbig : weightedRecord io d N C + 8 ≤ 8 * ((octreeBackend d).traverse (m.st.storage c)).length)
    (old : Option Dir) (t : SaveTrace d old (headerBytes io h) (storeFiles io (weightedFmt 8 N C) m))
    (canOpen : Nat → Bool) (sched : List Nat) (hopen : ∀ c ∈ sched, canOpen c = true) (hj : (Threads.run canOpen sched).Joined (2 ^ d))
    (f : Nat → Nat) (f' : Nat) (junk : Nat → Occ W E) :
    ∃ m', loadDir io d (weightedFmt 8 N C) (rebuildDynamic f f' junk) canOpen sched (runEffs old t.effects) = .loaded m' ∧
      ∃ k, m.st.content c k ≠ none ∧ m'.st.content c k = none := by
  have hI : RInv (octreeLawful d) true m.st := hR.spec.1
  obtain ⟨dir, h1, h2, h3⟩ := t.run_all
  obtain ⟨x1, x2, x3, x4, x5, x6⟩ := dyn_readHeader hd io hR.spec.1 hne hok.1 hok.2.1 h hh
  rw [h1, loadDir_eq io _ _ canOpen sched dir _ h2 (fun c hc => by rw [h3 c hc]; rfl) hopen hj, x1]
  have hrok := records_ok io (weightedFmt 8 N C) m hR.spec.1 rfl hok.2.2
  have hread : ∀ j, j < 2 ^ d → ∃ r, readRecords io d (weightedFmt 8 N C) ((dir (.store j)).getD []) = (records m.st j).take r := by
    intro j hj'
    rw [h3 j hj', Option.getD_some, storeFiles_eq]
    exact ⟨_, C32_records_read_partial io N C _ (hrok j)⟩
  obtain ⟨m', y1, _, _, _, y5⟩ := rebuildDynamic_sub hR.spec.1 f f' junk h x5
    (fun c => if canOpen c then readRecords io d (weightedFmt 8 N C) ((dir (.store c)).getD []) else []) (by
      intro j hj'
      rw [if_pos (hopen j (joined_mem hj hj'))]
      obtain ⟨r, hr⟩ := hread j hj'
      rw [hr]; exact List.take_sublist _ _)
  have hlen : (records m.st c).length = ((octreeBackend d).traverse (m.st.storage c)).length := by unfold records; rw [List.length_map]
  obtain ⟨r, hr⟩ := hread c hc
  have hrl : r < (records m.st c).length := by
    by_contra hge
    have e : (records m.st c).take r = records m.st c := List.take_of_length_le (by omega)
    rw [e, h3 c hc, Option.getD_some, storeFiles_eq] at hr
    have := (C32_lossless_iff_partial io N C _ (hrok c)).1 hr
    omega
  refine ⟨m', by rw [y1]; rfl, ((records m.st c)[r]).1, ?_, ?_⟩
  · have hm : m.st.content c ((records m.st c)[r]).1 = some ((records m.st c)[r]).2 := (mem_records (octreeLawful d) m.st hI.inv c _ _).1 (List.getElem_mem hrl)
    rw [hm]; simp
  · cases hx : m'.st.content c ((records m.st c)[r]).1 with
    | none => rfl
    | some x =>
      have h4 := (y5 c hc _ x).1 hx
      simp only [hopen c (joined_mem hj hc), if_true] at h4
      rw [hr] at h4
      have hnd := nodup_records (octreeLawful d) m.st hI.inv c
      obtain ⟨i, hi, hxi⟩ := List.getElem_of_mem h4
      rw [List.getElem_take] at hxi
      have hi' : i < r := by rw [List.length_take] at hi; omega
      have hget : ((records m.st c).map Prod.fst)[i]'(by rw [List.length_map]; omega) = ((records m.st c).map Prod.fst)[r]'(by rw [List.length_map]; omega) := by
        rw [List.getElem_map, List.getElem_map, hxi]
      have := (List.Nodup.getElem_inj_iff hnd).1 hget
      omega

/-- **C32** (partial): a reachable weighted occupancy map whose storages all hold `n` records of `R` bytes with `8 n < R + 8` is restored completely. -/
theorem C32_small_map_roundtrip_partial (hd : 0 < d) (m : MapObj (octreeBackend d) K P (Occ W E)) (hR : MapReachable (.dynamic g g') exp m.st) (hne : m.st.bundleIndices ≠ [])
    (io : Io K P) (N : Codec W) (C : Codec (Multiset E)) (hok : Storable io (weightedFmt 8 N C) m) (h : Header K P d) (hh : dynHeader m = some h)
    (hsmall : ∀ c, c < 2 ^ d → 8 * ((octreeBackend d).traverse (m.st.storage c)).length < weightedRecord io d N C + 8)
    (old : Option Dir) (t : SaveTrace d old (headerBytes io h) (storeFiles io (weightedFmt 8 N C) m))
    (canOpen : Nat → Bool) (sched : List Nat) (hopen : ∀ c ∈ sched, canOpen c = true) (hj : (Threads.run canOpen sched).Joined (2 ^ d))
    (f : Nat → Nat) (f' : Nat) (junk : Nat → Occ W E) :
    ∃ m', loadDir io d (weightedFmt 8 N C) (rebuildDynamic f f' junk) canOpen sched (runEffs old t.effects) = .loaded m' ∧
      m'.pose = m.pose ∧ m'.resolution = m.resolution ∧ Spec.Restored m.st m'.st := by
  obtain ⟨dir, h1, h2, h3⟩ := t.run_all
  obtain ⟨x1, x2, x3, x4, x5, x6⟩ := dyn_readHeader hd io hR.spec.1 hne hok.1 hok.2.1 h hh
  rw [h1, loadDir_eq io _ _ canOpen sched dir _ h2 (fun c hc => by rw [h3 c hc]; rfl) hopen hj, x1]
  have hrok := records_ok io (weightedFmt 8 N C) m hR.spec.1 rfl hok.2.2
  obtain ⟨m', y1, y2, y3, _, y5, _⟩ := rebuildDynamic_restores hR.spec.1 f f' junk h x5 x4 x6
    (fun c => if canOpen c then readRecords io d (weightedFmt 8 N C) ((dir (.store c)).getD []) else []) (by
      intro c hc
      rw [if_pos (hopen c (joined_mem hj hc)), h3 c hc, Option.getD_some, storeFiles_eq]
      refine (C32_lossless_iff_partial io N C _ (hrok c)).2 ?_
      unfold records
      rw [List.length_map]
      exact hsmall c hc)
  exact ⟨m', by rw [y1]; rfl, y2.trans x2, y3.trans x3, y5⟩

end

/-- A reachable one-dimensional weighted map with one hit in each of `n` bundles. -/
theorem sample_weighted (n : Nat) (hn : n ≤ 1000) (g : Nat → Nat) (g' : Nat) : ∃ st : St (octreeBackend 1) (Occ Nat Unit),
    MapReachable (.dynamic g g') (fun _ => false) st ∧ (0 < n → st.bundleIndices ≠ []) ∧ n ≤ ((octreeBackend 1).traverse (st.storage 0)).length ∧
    ∀ c k o, st.content c k = some o → o.free = 0 ∧ o.data ≠ some 0 ∧ (o.data.getD 0).card ≤ 2 * n := by
  let ups : List (Idx 1 × (Occ Nat Unit → Occ Nat Unit)) := (List.range n).map fun i : Nat => (fun _ => 2 * (i : Int), fun o => o.updateOccupied {()})
  have hI : RInv (octreeLawful 1) true ((Kind.dynamic g g').init (Occ Nat Unit)) := (Kind.dynamic (d := 1) g g').init_rinv
  have hgood : ∀ e ∈ ups, ((Kind.dynamic g g').init (Occ Nat Unit)).abs.Good e.1 := by
    intro e he
    obtain ⟨i, hi, rfl⟩ := List.mem_map.1 he
    have hi' := List.mem_range.1 hi
    refine ⟨decide_eq_true fun a => ?_, fun c _ => decide_eq_true fun a => ?_⟩
    · show -32768 ≤ 2 * (i : Int) ∧ 2 * (i : Int) ≤ 32767
      omega
    · have hg : generateIndex (fun _ => 2 * (i : Int) : Idx 1) c a = if c.testBit a.1 then (2 * (i : Int) + 1) / 2 else 2 * (i : Int) / 2 := getIndexInner_eq _ _ _
      rw [hg]; split <;> omega
  obtain ⟨st, hst, hinv, hA⟩ := (updateList_refines (octreeLawful 1) true ups _ hI.inv).1 hgood
  have hR : MapReachable (.dynamic g g') (fun _ => false) st := .updates (k := .dynamic g g') ups _ st .init (fun _ _ => rfl) hst
  have hal : ∀ i, i < n → (fun _ => 2 * (i : Int) : Idx 1) ∈ st.abs.allocated := by
    intro i hi
    rw [Abs.mem_allocated, hA, Abs.flags_upds]
    have : (fun _ => 2 * (i : Int) : Idx 1) ∈ ups.map Prod.fst := List.mem_map.2 ⟨(fun _ => 2 * (i : Int), _), List.mem_map.2 ⟨i, List.mem_range.2 hi, rfl⟩, rfl⟩
    rw [if_pos this]; rfl
  refine ⟨st, hR, ?_, ?_, ?_⟩
  · intro h0 e
    have := (mem_bundleIndices (octreeLawful 1) st hinv _).2 ((mem_allocated_iff st _).1 (hal 0 h0))
    rw [e] at this; cases this
  · have hsub : ((List.range n).map fun i : Nat => (fun _ => (i : Int) : Idx 1)) ⊆ ((octreeBackend 1).traverse (st.storage 0)).map Prod.fst := by
      intro k hk
      obtain ⟨i, hi, rfl⟩ := List.mem_map.1 hk
      have h1 := (hR.spec.1.ainv.used 0 (generateIndex (fun _ => 2 * (i : Int)) 0)).2 ⟨by decide, _, hal i (List.mem_range.1 hi), rfl⟩
      have e : generateIndex (fun _ => 2 * (i : Int) : Idx 1) 0 = fun _ => (i : Int) := by
        funext a
        have hg : generateIndex (fun _ => 2 * (i : Int) : Idx 1) 0 a = if Nat.testBit 0 a.1 then (2 * (i : Int) + 1) / 2 else 2 * (i : Int) / 2 := getIndexInner_eq _ _ _
        rw [hg]; simp
      rw [e] at h1
      obtain ⟨x, hx⟩ := Option.isSome_iff_exists.1 h1
      obtain ⟨a, ha, _⟩ := Option.map_eq_some_iff.1 hx
      exact List.mem_map.2 ⟨(_, a), ((octreeLawful 1).mem_traverse _ (hinv.store 0) _ a).2 ha, rfl⟩
    have hnd : ((List.range n).map fun i : Nat => (fun _ => (i : Int) : Idx 1)).Nodup := by
      refine List.Nodup.map ?_ List.nodup_range
      intro i j hij
      have := congrFun hij 0
      simpa using this
    have := (hnd.subperm hsub).length_le
    simpa using this
  · have key : ∀ (l : List (Idx 1 × (Occ Nat Unit → Occ Nat Unit))) (A : Abs 1 (Occ Nat Unit)) (b : Nat), (∀ e ∈ l, e.2 = fun o => o.updateOccupied {()}) →
        (∀ c k o, A.content c k = some o → o.free = 0 ∧ o.data ≠ some 0 ∧ (o.data.getD 0).card ≤ b) →
        ∀ c k o, (A.upds true l).content c k = some o → o.free = 0 ∧ o.data ≠ some 0 ∧ (o.data.getD 0).card ≤ b + l.length := by
      intro l
      induction l with
      | nil => intro A b _ h; exact h
      | cons e l ih =>
        intro A b hl h
        have hh := ih (A.upd true e.1 e.2) (b + 1) (fun x hx => hl x (List.mem_cons_of_mem _ hx)) ?_
        · intro c k o ho
          have := hh c k o ho
          rw [List.length_cons]
          exact ⟨this.1, this.2.1, by omega⟩
        · have hAl : ∀ c k o, (A.alloc true e.1).content c k = some o → o.free = 0 ∧ o.data ≠ some 0 ∧ (o.data.getD 0).card ≤ b := by
            intro c k o ho
            unfold Abs.alloc at ho
            split at ho
            · exact h c k o ho
            · simp only at ho
              split at ho
              · cases ho
                cases hx : A.content c k with
                | none =>
                  refine ⟨rfl, ?_, Nat.zero_le _⟩
                  intro e; cases e
                | some x => exact h c k x hx
              · exact h c k o ho
          intro c k o ho
          unfold Abs.upd at ho
          simp only at ho
          split at ho
          · obtain ⟨x, hx, rfl⟩ := Option.map_eq_some_iff.1 ho
            obtain ⟨h1, h2, h3⟩ := hAl c k x hx
            rw [hl e List.mem_cons_self]
            cases hxd : x.data with
            | none => simp [Occ.updateOccupied, hxd, h1]
            | some s =>
              rw [hxd] at h3
              simp only [Option.getD_some] at h3
              simp [Occ.updateOccupied, hxd, h1, h3]
          · have := hAl c k o ho
            exact ⟨this.1, this.2.1, by omega⟩
    intro c k o ho
    have ho' : (Abs.upds true ups ((Kind.dynamic (d := 1) g g').init (Occ Nat Unit)).abs).content c k = some o := by rw [← hA]; exact ho
    obtain ⟨h1, h2, h3⟩ := key ups _ 0 (by
      intro e he
      obtain ⟨i, _, rfl⟩ := List.mem_map.1 he; rfl) (by
      intro c k o ho; rw [Kind.init_content] at ho; cases ho) c k o ho'
    refine ⟨h1, h2, ?_⟩
    have : ups.length = n := by simp [ups]
    omega

/-- **C32 refuted** (witness): a reachable one-dimensional weighted map with ten hits, in PC formats, loses a distribution in every save and load. -/
theorem C32_refuted : ∃ (st : St (octreeBackend 1) (Occ Nat Unit)) (h : Header Nat Nat 1), MapReachable (.dynamic (fun _ => 0) 0) (fun _ => false) st ∧ dynHeader ⟨3, 7, st⟩ = some h ∧
    ∀ (old : Option Dir) (t : SaveTrace 1 old (headerBytes pcIo h) (storeFiles pcIo (weightedFmt 8 (natCodec 8) unitCodec) ⟨3, 7, st⟩)) (sched : List Nat),
      (Threads.run (fun _ => true) sched).Joined 2 →
      ∃ m' : MapObj (octreeBackend 1) Nat Nat (Occ Nat Unit),
        loadDir pcIo 1 (weightedFmt 8 (natCodec 8) unitCodec) (rebuildDynamic (fun _ => 0) 0 (fun _ => Occ.new)) (fun _ => true) sched (runEffs old t.effects) = .loaded m' ∧
        ∃ k, st.content 0 k ≠ none ∧ m'.st.content 0 k = none := by
  obtain ⟨st, h1, h2, h3, h4⟩ := sample_weighted 10 (by decide) (fun _ => 0) 0
  obtain ⟨h, hh⟩ := Option.isSome_iff_exists.1 (C31_header_defined (K := Nat) (P := Nat) ⟨3, 7, st⟩ h1 (h2 (by decide)))
  refine ⟨st, h, h1, hh, ?_⟩
  intro old t sched hj
  refine C32_weighted_loss_refuted (by decide) ⟨3, 7, st⟩ h1 (h2 (by decide)) pcIo (natCodec 8) unitCodec ⟨?_, ?_, ?_⟩ h hh 0 (by decide) ?_ old t _ sched (fun _ _ => rfl) hj _ _ _
  · show (3 : Nat) < 256 ^ 24; norm_num
  · show (7 : Nat) < 256 ^ 8; norm_num
  · intro c k o ho
    obtain ⟨e1, e2, e3⟩ := h4 c k o ho
    refine ⟨?_, ?_, e2⟩
    · show o.free < 256 ^ 8
      rw [e1]; norm_num
    · show (o.data.getD 0).card < 256 ^ 8
      norm_num; omega
  · have : weightedRecord pcIo 1 (natCodec 8) unitCodec = 20 := rfl
    rw [this]
    show 20 + 8 ≤ 8 * ((octreeBackend 1).traverse (st.storage 0)).length
    omega

/-- Non-vacuity of the small-map theorem: for one hit the file is short enough (8·1 < 20 + 8, a storage of that map has at most two records). -/
example : 8 * 1 < weightedRecord pcIo 1 (natCodec 8) unitCodec + 8 := by decide

/-! ### C33: static maps -/
section
variable {d : Nat} {K P D : Type} [Inhabited D] {size : Fin d → Nat} {lo : Idx d} {exp : D → Bool}

theorem static_valid_of {st : St (arrayBackend d) D} (hR : MapReachable (.static size lo) exp st) (bi : Idx d) (hbi : bi ∈ st.bundleIndices) (a : Fin d) :
    lo a ≤ bi a ∧ bi a < lo a + 2 * (size a : Int) - 1 := by
  have hb := static_bounds hR
  have h := hR.valid bi hbi
  have h1 : (false || decide (∀ a, st.minB a ≤ bi a ∧ bi a < st.maxB a)) = true := h
  rw [Bool.false_or] at h1
  have h2 := of_decide_eq_true h1 a
  rw [hb.1, hb.2.1] at h2
  simp only at h2
  push_cast at h2
  omega

theorem static_records_ok (io : Io K P) (F : Fmt D) (m : MapObj (arrayBackend d) K P D) (hR : MapReachable (.static size lo) exp m.st)
    (hrange : ∀ a, -2147483648 ≤ lo a ∧ lo a + 2 * (size a : Int) ≤ 2147483647) (hv : ∀ c k x, m.st.content c k = some x → F.codec.Ok x) (c : Nat) :
    ∀ e ∈ records m.st c, (recCodec io d F).Ok e := by
  have hI : RInv (arrayLawful d) false m.st := hR.spec.1
  rintro ⟨k, x⟩ he
  have hx := (mem_records (arrayLawful d) m.st hI.inv c k x).1 he
  obtain ⟨hc, bi, hbi, hk⟩ := (hI.ainv.used c k).1 (by show (m.st.content c k).isSome = true; rw [hx]; rfl)
  have hbi' : bi ∈ m.st.bundleIndices := (mem_bundleIndices (arrayLawful d) m.st hI.inv bi).2 ((mem_allocated_iff m.st bi).1 hbi)
  refine ⟨Codec.array_ok io.int d k fun a => ?_, hv c k x hx⟩
  have h1 := static_valid_of hR bi hbi' a
  have h2 := hrange a
  have hg : generateIndex bi c a = if c.testBit a.1 then (bi a + 1) / 2 else bi a / 2 := getIndexInner_eq _ _ _
  refine io.int_ok _ ?_ ?_
  all_goals
    rw [← hk, hg]
    split <;> omega

/-- the header of a reachable static map is read back as written, if the map lies in the range of `int` -/
theorem static_readHeader (hd : 0 < d) (io : Io K P) (m : MapObj (arrayBackend d) K P D) (hR : MapReachable (.static size lo) exp m.st)
    (hrange : ∀ a, -2147483648 ≤ lo a ∧ lo a + 2 * (size a : Int) ≤ 2147483647) (hp : io.pose.Ok m.pose) (hr : io.real.Ok m.resolution) :
    readHeader io d (headerBytes io (staticHeader size m)) = staticHeader size m := by
  have hb := static_bounds hR
  refine readHeader_eq io hd _ hp hr ?_ ?_ ?_
  · intro a
    have := hrange a
    show size a < 2 ^ 64
    omega
  · intro a
    have := hrange a
    show -2147483648 ≤ m.st.minB a ∧ m.st.minB a ≤ 2147483647
    rw [hb.1]; omega
  · intro i hi a
    have h1 := static_valid_of hR i hi a
    have := hrange a
    omega

/-- the arrays of a loaded static map hold every distribution of the bundle `bi`, iff the minimum index is even in the first dimension or `bi` is not in the last accepted row of that dimension -/
theorem static_fresh_ok (hd : 0 < d) (bi : Idx d) (hb : ∀ a, lo a ≤ bi a ∧ bi a < lo a + 2 * (size a : Int) - 1) :
    (∀ c, c < 2 ^ d → (arrayBackend d).ok (Arr.fresh (V := Nat) (fun a => size a + (if 1 < c then 1 else 0)) (fun a => lo a / 2)) (generateIndex bi c) = true) ↔
      (lo ⟨0, hd⟩ % 2 = 0 ∨ bi ⟨0, hd⟩ ≠ lo ⟨0, hd⟩ + 2 * (size ⟨0, hd⟩ : Int) - 2) := by
  constructor
  · intro h
    have h1 : Arr.InBox (V := Nat) _ _ := of_decide_eq_true (h 1 (Nat.one_lt_two_pow (by omega)))
    have h2 := h1 ⟨0, hd⟩
    have hg : generateIndex bi 1 ⟨0, hd⟩ = if Nat.testBit 1 0 then (bi ⟨0, hd⟩ + 1) / 2 else bi ⟨0, hd⟩ / 2 := getIndexInner_eq _ _ _
    have ht : Nat.testBit 1 0 = true := by decide
    rw [hg, ht] at h2
    have h3 : (bi ⟨0, hd⟩ + 1) / 2 < lo ⟨0, hd⟩ / 2 + ((size ⟨0, hd⟩ + 0 : Nat) : Int) := h2.2
    have := hb ⟨0, hd⟩
    push_cast at h3
    omega
  · intro h c hc
    refine decide_eq_true ?_
    intro a
    have hg : generateIndex bi c a = if c.testBit a.1 then (bi a + 1) / 2 else bi a / 2 := getIndexInner_eq _ _ _
    have hba := hb a
    rw [hg]
    show lo a / 2 ≤ _ ∧ _ < lo a / 2 + ((size a + (if 1 < c then 1 else 0) : Nat) : Int)
    by_cases h1 : 1 < c
    · rw [if_pos h1]
      push_cast
      split <;> omega
    · rw [if_neg h1]
      push_cast
      by_cases ht : c.testBit a.1 = true
      · rw [if_pos ht]
        have hc1 : c = 1 := by
          rcases Nat.lt_or_ge c 1 with h0 | h0
          · have : c = 0 := by omega
            rw [this] at ht; simp at ht
          · omega
        have ha0 : a = ⟨0, hd⟩ := by
          rw [hc1, Nat.testBit_one_eq_true_iff_self_eq_zero] at ht
          exact Fin.ext ht
        subst ha0
        omega
      · rw [if_neg ht]
        omega

/-- loading a saved static map: the visible state and the invariants -/
theorem static_load_restores (hd : 0 < d) (m : MapObj (arrayBackend d) K P D) (hR : MapReachable (.static size lo) exp m.st)
    (hrange : ∀ a, -2147483648 ≤ lo a ∧ lo a + 2 * (size a : Int) ≤ 2147483647)
    (hpar : lo ⟨0, hd⟩ % 2 = 0 ∨ ∀ bi ∈ m.st.bundleIndices, bi ⟨0, hd⟩ ≠ lo ⟨0, hd⟩ + 2 * (size ⟨0, hd⟩ : Int) - 2)
    (io : Io K P) (F : Fmt D) (hF : F.reported = F.codec.size) (hp : io.pose.Ok m.pose) (hr : io.real.Ok m.resolution) (hv : ∀ c k x, m.st.content c k = some x → F.codec.Ok x)
    (old : Option Dir) (t : SaveTrace d old (headerBytes io (staticHeader size m)) (storeFiles io F m))
    (canOpen : Nat → Bool) (sched : List Nat) (hopen : ∀ c ∈ sched, canOpen c = true) (hj : (Threads.run canOpen sched).Joined (2 ^ d)) (junk : Nat → D) :
    ∃ m', loadDir io d F (rebuildStatic junk) canOpen sched (runEffs old t.effects) = .loaded m' ∧ m'.pose = m.pose ∧ m'.resolution = m.resolution ∧ Spec.Restored m.st m'.st ∧ RInv (arrayLawful d) false m'.st ∧
      (∀ bi, (arrayBackend d).ok m'.st.bundles bi = (arrayBackend d).ok (Arr.fresh (V := Bundle) (fun a => size a * 2) lo) bi) ∧
      ∀ c k, (arrayBackend d).ok (m'.st.storage c) k = (arrayBackend d).ok (Arr.fresh (V := Nat) (fun a => size a + (if 1 < c then 1 else 0)) (fun a => lo a / 2)) k := by
  have hI : RInv (arrayLawful d) false m.st := hR.spec.1
  have hb := static_bounds hR
  obtain ⟨dir, h1, h2, h3⟩ := t.run_all
  rw [h1, loadDir_eq io F _ canOpen sched dir _ h2 (fun c hc => by rw [h3 c hc]; rfl) hopen hj, static_readHeader hd io m hR hrange hp hr]
  obtain ⟨st', y1, y2, y3, y4, y5, _⟩ := rebuild_restores (arrayLawful d) false m.st hI (fun c => Arr.fresh (fun a => size a + (if 1 < c then 1 else 0)) (fun a => m.st.minB a / 2))
    (Arr.fresh (fun a => size a * 2) m.st.minB) (fun c => if canOpen c then readRecords io d F ((dir (.store c)).getD []) else []) junk (by
      intro c hc
      rw [if_pos (hopen c (joined_mem hj hc)), h3 c hc, Option.getD_some]
      exact (congrArg _ (storeFiles_eq io F m c)).trans (readRecords_exact io hd F hF _ (static_records_ok io F m hR hrange hv c)))
    (fun c => trivial) (fun c k => array_look_fresh _ _ k) trivial (fun k => array_look_fresh _ _ k)
    (by
      intro bi hbi
      rw [hb.1]
      have hv := static_valid_of hR bi hbi
      refine ⟨decide_eq_true fun a => ?_, (static_fresh_ok hd bi hv).2 (hpar.imp_right fun h => h bi hbi)⟩
      have := hv a
      show lo a ≤ bi a ∧ bi a < lo a + ((size a * 2 : Nat) : Int)
      push_cast
      omega)
    (by intro h; cases h)
  rw [hb.1] at y4 y5
  refine ⟨⟨m.pose, m.resolution, st'⟩, ?_, rfl, rfl, y3, y2, y4, y5⟩
  have hmax : (fun a => m.st.minB a + (size a * 2 : Nat) - 1) = m.st.maxB := by rw [hb.2.1, hb.1]
  unfold rebuildStatic staticHeader
  simp only
  rw [hmax, y1]
  rfl

/-- **C33** (partial): for every reachable static map whose minimum index is even in the first dimension, or that has no bundle in the last accepted row of that dimension, `load` after `save` restores
everything without an out-of-range access, for every execution of `save` and every schedule. -/
theorem C33_static_roundtrip_partial (hd : 0 < d) (m : MapObj (arrayBackend d) K P D) (hR : MapReachable (.static size lo) exp m.st)
    (hrange : ∀ a, -2147483648 ≤ lo a ∧ lo a + 2 * (size a : Int) ≤ 2147483647)
    (hpar : lo ⟨0, hd⟩ % 2 = 0 ∨ ∀ bi ∈ m.st.bundleIndices, bi ⟨0, hd⟩ ≠ lo ⟨0, hd⟩ + 2 * (size ⟨0, hd⟩ : Int) - 2)
    (io : Io K P) (F : Fmt D) (hF : F.reported = F.codec.size) (hp : io.pose.Ok m.pose) (hr : io.real.Ok m.resolution) (hv : ∀ c k x, m.st.content c k = some x → F.codec.Ok x)
    (old : Option Dir) (t : SaveTrace d old (headerBytes io (staticHeader size m)) (storeFiles io F m))
    (canOpen : Nat → Bool) (sched : List Nat) (hopen : ∀ c ∈ sched, canOpen c = true) (hj : (Threads.run canOpen sched).Joined (2 ^ d)) (junk : Nat → D) :
    ∃ m', loadDir io d F (rebuildStatic junk) canOpen sched (runEffs old t.effects) = .loaded m' ∧ m'.pose = m.pose ∧ m'.resolution = m.resolution ∧ Spec.Restored m.st m'.st := by
  obtain ⟨m', y1, y2, y3, y4, _⟩ := static_load_restores hd m hR hrange hpar io F hF hp hr hv old t canOpen sched hopen hj junk
  exact ⟨m', y1, y2, y3, y4⟩

/-- **C33 refuted**: for every reachable static map whose minimum index is odd in the first dimension and that has a bundle in the last accepted row of that dimension, `load` after `save` accesses an array
out of range, for every execution of `save` and every schedule. -/
theorem C33_odd_minimum_refuted (hd : 0 < d) (m : MapObj (arrayBackend d) K P D) (hR : MapReachable (.static size lo) exp m.st)
    (hrange : ∀ a, -2147483648 ≤ lo a ∧ lo a + 2 * (size a : Int) ≤ 2147483647) (hodd : lo ⟨0, hd⟩ % 2 = 1)
    (bi : Idx d) (hbi : bi ∈ m.st.bundleIndices) (hlast : bi ⟨0, hd⟩ = lo ⟨0, hd⟩ + 2 * (size ⟨0, hd⟩ : Int) - 2)
    (io : Io K P) (F : Fmt D) (hF : F.reported = F.codec.size) (hp : io.pose.Ok m.pose) (hr : io.real.Ok m.resolution) (hv : ∀ c k x, m.st.content c k = some x → F.codec.Ok x)
    (old : Option Dir) (t : SaveTrace d old (headerBytes io (staticHeader size m)) (storeFiles io F m))
    (canOpen : Nat → Bool) (sched : List Nat) (hopen : ∀ c ∈ sched, canOpen c = true) (hj : (Threads.run canOpen sched).Joined (2 ^ d)) (junk : Nat → D) :
    loadDir io d F (rebuildStatic junk) canOpen sched (runEffs old t.effects) = .undefined := by
  have hI : RInv (arrayLawful d) false m.st := hR.spec.1
  have hb := static_bounds hR
  obtain ⟨dir, h1, h2, h3⟩ := t.run_all
  rw [h1, loadDir_eq io F _ canOpen sched dir _ h2 (fun c hc => by rw [h3 c hc]; rfl) hopen hj, static_readHeader hd io m hR hrange hp hr]
  have hvl := static_valid_of hR bi hbi
  have hnot : ¬ ∀ c, c < 2 ^ d → (arrayBackend d).ok (Arr.fresh (V := Nat) (fun a => size a + (if 1 < c then 1 else 0)) (fun a => lo a / 2)) (generateIndex bi c) = true := by
    rw [static_fresh_ok hd bi hvl]
    push Not
    exact ⟨by omega, hlast⟩
  push Not at hnot
  obtain ⟨c, hc, hbad⟩ := hnot
  have hal : bi ∈ m.st.abs.allocated := (mem_allocated_iff m.st bi).2 ((mem_bundleIndices (arrayLawful d) m.st hI.inv bi).1 hbi)
  have hs := (hI.ainv.used c (generateIndex bi c)).2 ⟨hc, bi, hal, rfl⟩
  obtain ⟨x, hx⟩ := Option.isSome_iff_exists.1 hs
  have hmem := (mem_records (arrayLawful d) m.st hI.inv c (generateIndex bi c) x).2 hx
  have hnone : rebuildStatic junk (staticHeader size m) (fun c => if canOpen c then readRecords io d F ((dir (.store c)).getD []) else []) = none := by
    unfold rebuildStatic rebuild staticHeader
    simp only
    rw [insertStorages_bad (arrayLawful d) _ _ c (generateIndex bi c, x) (by
        rw [if_pos (hopen c (joined_mem hj hc)), h3 c hc, Option.getD_some, storeFiles_eq, readRecords_exact io hd F hF _ (static_records_ok io F m hR hrange hv c)]
        exact hmem) (by rw [hb.1]; simpa using hbad) _ _ _ (Nat.zero_le _) (by rw [twoPow_eq]; omega)]
    rfl
  rw [hnone]; rfl

end

theorem one_update (dyn : Bool) (A : Abs 1 Nat) (hf : ∀ bi, A.flags bi = none) (h0 : ∀ c k, A.content c k = none) (i : Idx 1) (c : Nat) (k : Idx 1) :
    (Abs.upds dyn [(i, fun n : Nat => n + 12)] A).content c k = if c < 2 ∧ k = generateIndex i c then some 12 else none := by
  have hal : ∀ c k, (A.alloc dyn i).content c k = if c < 2 ^ 1 ∧ generateIndex i c = k then some 0 else none := by
    intro c k
    unfold Abs.alloc
    rw [if_neg (by rw [hf]; simp)]
    simp only [h0]
    rfl
  show (if c < 2 ^ 1 ∧ generateIndex i c = k then ((A.alloc dyn i).content c k).map _ else (A.alloc dyn i).content c k) = _
  rw [hal]
  by_cases hc : c < 2 ∧ k = generateIndex i c
  · rw [if_pos hc, if_pos ⟨hc.1, hc.2.symm⟩, if_pos ⟨hc.1, hc.2.symm⟩]; rfl
  · have hc' : ¬ (c < 2 ^ 1 ∧ generateIndex i c = k) := fun h => hc ⟨h.1, h.2.symm⟩
    rw [if_neg hc, if_neg hc', if_neg hc']

/-- A reachable one-dimensional static map of four bundles starting at `m`, with the value 12 in the last accepted bundle. -/
theorem sample_static (m : Int) : ∃ st : St (arrayBackend 1) Nat, MapReachable (.static (fun _ => 2) (fun _ => m)) (fun _ => false) st ∧
    (fun _ => m + 2) ∈ st.bundleIndices ∧ st.content 1 (fun _ => (m + 3) / 2) = some 12 ∧ ∀ c k x, st.content c k = some x → x ≤ 12 := by
  let k : Kind 1 := .static (fun _ => 2) (fun _ => m)
  have hI : RInv (arrayLawful 1) false (k.init Nat) := k.init_rinv
  have hv : (k.init Nat).abs.valid false (fun _ => m + 2) = true := (Kind.static_valid _ _ _).2 fun a => by
    show m ≤ m + 2 ∧ m + 2 < m + 2 * ((2 : Nat) : Int) - 1
    push_cast
    omega
  have hG := Kind.static_good _ _ _ hv
  obtain ⟨st, hst, hinv, hA⟩ := (updateList_refines (arrayLawful 1) false [((fun _ => m + 2 : Idx 1), fun n : Nat => n + 12)] (k.init Nat) hI.inv).1 (by
    intro e he
    rw [List.mem_singleton] at he
    subst he
    exact hG)
  have hR : MapReachable k (fun _ => false) st := .updates (k := k) [((fun _ => m + 2 : Idx 1), fun n : Nat => n + 12)] _ st .init (by
    intro e he
    rw [List.mem_singleton] at he
    subst he
    exact hv) hst
  have hcont : ∀ c k', st.content c k' = if c < 2 ∧ k' = generateIndex (fun _ => m + 2 : Idx 1) c then some 12 else none := by
    intro c k'
    have h0 : ∀ c k', (k.init Nat).abs.content c k' = none := fun c k' => Kind.init_content _ _ _
    have hf : ∀ bi, (k.init Nat).abs.flags bi = none := fun bi => Kind.init_flags _ _
    show st.abs.content c k' = _
    rw [hA]
    exact one_update _ _ hf h0 _ c k'
  refine ⟨st, hR, ?_, ?_, ?_⟩
  · rw [mem_bundleIndices (arrayLawful 1) st hinv, ← mem_allocated_iff, Abs.mem_allocated, hA, Abs.flags_upds]
    simp
  · rw [hcont, if_pos]
    refine ⟨by decide, ?_⟩
    funext a
    have hg : generateIndex (fun _ => m + 2 : Idx 1) 1 a = if Nat.testBit 1 a.1 then (m + 2 + 1) / 2 else (m + 2) / 2 := getIndexInner_eq _ _ _
    have ht : Nat.testBit 1 a.1 = true := by fin_cases a; decide
    rw [hg, if_pos ht]
    congr 1
    ring
  · intro c k' x hx
    rw [hcont] at hx
    split at hx
    · cases hx; exact le_refl _
    · cases hx

/-- Non-vacuity of C33: the sample starting at 0 is restored, the sample starting at 1 makes `load` undefined. -/
example : ∃ st : St (arrayBackend 1) Nat, st.content 1 (fun _ => 1) = some 12 ∧
    ∀ (old : Option Dir) (t : SaveTrace 1 old (headerBytes pcIo (staticHeader (fun _ => 2) ⟨3, 7, st⟩)) (storeFiles pcIo (distFmt (natCodec 8)) (⟨3, 7, st⟩ : MapObj (arrayBackend 1) Nat Nat Nat))),
      ∃ m' : MapObj (arrayBackend 1) Nat Nat Nat,
        loadDir pcIo 1 (distFmt (natCodec 8)) (rebuildStatic (fun _ => 0)) (fun _ => true) (Threads.sequential (List.range 2)) (runEffs old t.effects) = .loaded m' ∧
        m'.st.content 1 (fun _ => 1) = some 12 := by
  obtain ⟨st, h1, h2, h3, h4⟩ := sample_static 0
  refine ⟨st, h3, ?_⟩
  intro old t
  obtain ⟨m', a1, _, _, a4⟩ := C33_static_roundtrip_partial (by decide) (⟨3, 7, st⟩ : MapObj (arrayBackend 1) Nat Nat Nat) h1 (fun _ => by decide) (Or.inl (by decide)) pcIo (distFmt (natCodec 8)) rfl
    (by show (3 : Nat) < 256 ^ 24; norm_num) (by show (7 : Nat) < 256 ^ 8; norm_num) (by
      intro c k x hx
      have := h4 c k x hx
      show x < 256 ^ 8
      norm_num; omega) old t (fun _ => true) _ (fun _ _ => rfl) (Threads.ordered_joined _ 2) (fun _ => 0)
  exact ⟨m', a1, by rw [a4.contents]; exact h3⟩

example : ∃ st : St (arrayBackend 1) Nat, st.content 1 (fun _ => 2) = some 12 ∧
    ∀ (old : Option Dir) (t : SaveTrace 1 old (headerBytes pcIo (staticHeader (fun _ => 2) ⟨3, 7, st⟩)) (storeFiles pcIo (distFmt (natCodec 8)) (⟨3, 7, st⟩ : MapObj (arrayBackend 1) Nat Nat Nat))),
        loadDir pcIo 1 (distFmt (natCodec 8)) (rebuildStatic (fun _ => 0)) (fun _ => true) (Threads.sequential (List.range 2)) (runEffs old t.effects) = .undefined := by
  obtain ⟨st, h1, h2, h3, h4⟩ := sample_static 1
  refine ⟨st, h3, ?_⟩
  intro old t
  exact C33_odd_minimum_refuted (by decide) (⟨3, 7, st⟩ : MapObj (arrayBackend 1) Nat Nat Nat) h1 (fun _ => by decide) (by decide) _ h2 (by decide) pcIo (distFmt (natCodec 8)) rfl
    (by show (3 : Nat) < 256 ^ 24; norm_num) (by show (7 : Nat) < 256 ^ 8; norm_num) (by
      intro c k x hx
      have := h4 c k x hx
      show x < 256 ^ 8
      norm_num; omega) old t (fun _ => true) _ (fun _ _ => rfl) (Threads.ordered_joined _ 2) (fun _ => 0)

/-! ### C35: worker threads -/
section
variable {d : Nat} {K P D M : Type}

/-- **C35** (partial, success): if every storage can be written (read), then `save` (the loading step of `load`) reports success in every schedule in which all threads finish, and every thread has done
its work. -/
theorem C35_success_reported_partial (n : Nat) (canOpen : Nat → Bool) (sched : List Nat) (hs : ∀ c ∈ sched, c < n) (hall : ∀ c, c < n → canOpen c = true)
    (hj : (Threads.run canOpen sched).Joined n) : saveResult true true canOpen sched = true ∧ ∀ c, c < n → (Threads.run canOpen sched).ran c = true := by
  obtain ⟨h1, h2⟩ := joined_ran (fun c hc => hall c (hs c hc)) hj
  exact ⟨by unfold saveResult; rw [h1]; rfl, h2⟩

/-- **C35** (partial, one thread after the other): if the threads run one after the other, in any order, the result is correct for every set of failing storages. -/
theorem C35_sequential_partial (n : Nat) (canOpen : Nat → Bool) (order : List Nat) (hp : order.Perm (List.range n)) (dirOk headerOk : Bool) :
    (Threads.run canOpen (Threads.sequential order)).Joined n ∧
    (saveResult dirOk headerOk canOpen (Threads.sequential order) = true ↔ dirOk = true ∧ headerOk = true ∧ ∀ c, c < n → canOpen c = true) := by
  constructor
  · intro c hc
    exact Threads.sequential_done canOpen order _ c (hp.mem_iff.2 (List.mem_range.2 hc))
  · have hf : (Threads.run canOpen (Threads.sequential order)).flag = order.all canOpen := by
      have := Threads.sequential_flag canOpen order Threads.init (hp.nodup_iff.2 List.nodup_range) (fun _ _ => rfl)
      exact this.trans (Bool.true_and _)
    unfold saveResult
    rw [hf, Bool.and_eq_true, Bool.and_eq_true, List.all_eq_true, and_assoc]
    refine and_congr_right fun _ => and_congr_right fun _ => ?_
    constructor
    · intro h c hc; exact h c (hp.mem_iff.2 (List.mem_range.2 hc))
    · intro h c hc; exact h c (List.mem_range.1 (hp.mem_iff.1 hc))

/-- **C35 refuted** (save): whenever at least one storage can be written, there is a schedule in which all threads finish and `save` reports success although any number of the other storages could not be
written: `success = success && f()` is not atomic. -/
theorem C35_lost_failure_refuted (n : Nat) (canOpen : Nat → Bool) (o : Nat) (ho : canOpen o = true) :
    ∃ sched, (Threads.run canOpen sched).Joined n ∧ saveResult true true canOpen sched = true := by
  obtain ⟨h1, h2⟩ := Threads.racing_spec canOpen n o ho
  exact ⟨_, h1, by unfold saveResult; rw [h2]; rfl⟩

/-- A failing storage for which `save` reports success: thread 1 of two fails. -/
example : ∃ sched, (Threads.run (fun c => decide (c ≠ 1)) sched).Joined 2 ∧ saveResult true true (fun c => decide (c ≠ 1)) sched = true :=
  C35_lost_failure_refuted 2 _ 0 (by decide)

/-- **C35 refuted** (load): likewise `load` of a complete directory does not report that a storage could not be read. -/
theorem C35_load_refuted (io : Io K P) (F : Fmt D) (rb : Header K P d → (Nat → List (Idx d × D)) → Option M) (canOpen : Nat → Bool) (o : Nat) (ho : canOpen o = true) (files : Dir)
    (hh : (files .header).isSome = true) (hs : ∀ c, c < 2 ^ d → (files (.store c)).isSome = true) :
    ∃ sched, (Threads.run canOpen sched).Joined (2 ^ d) ∧ loadDir io d F rb canOpen sched (some files) ≠ .fails := by
  obtain ⟨h1, h2⟩ := Threads.racing_spec canOpen (2 ^ d) o ho
  refine ⟨_, h1, ?_⟩
  obtain ⟨hb, hhb⟩ := Option.isSome_iff_exists.1 hh
  have e1 : ((List.range (twoPow d)).all fun c => (files (.store c)).isSome) = true := by
    rw [List.all_eq_true]; intro c hc; rw [List.mem_range, twoPow_eq] at hc; exact hs c hc
  unfold loadDir loadStores
  simp only [e1, if_true, hhb, h2]
  split
  · cases rb _ _ with
    | none => intro h; cases h
    | some m => intro h; cases h
  · intro h; cases h

end

/-! ### C36, C37: crashes -/
section
variable {d : Nat} {K P D M : Type}

/-- **C36 refuted**: every save over an existing directory has a crash point at which neither the old nor the new map can be loaded. -/
theorem C36_crash_refuted (io : Io K P) (F : Fmt D) (rb : Header K P d → (Nat → List (Idx d × D)) → Option M) (old : Dir) (hb : Bytes) (sb : Nat → Bytes)
    (t : SaveTrace d (some old) hb sb) : ∃ p, p <+: t.effects ∧ ∀ canOpen sched, loadDir io d F rb canOpen sched (runEffs (some old) p) = .fails := by
  refine ⟨t.removal, ?_, ?_⟩
  · unfold SaveTrace.effects
    rw [List.append_assoc]
    exact List.prefix_append _ _
  · intro canOpen sched
    rw [t.run_removal]
    rfl

theorem fold_rm_none (f : FileName) (l : List FileName) : (l.map Eff.rm).foldl (fileEff f) none = none := by
  induction l with
  | nil => rfl
  | cons x l ih =>
    rw [List.map_cons, List.foldl_cons]
    have : fileEff f none (.rm x) = none := by simp [fileEff]
    rw [this]; exact ih

theorem fold_rm (f : FileName) (l : List FileName) (o : Option Bytes) : (l.map Eff.rm).foldl (fileEff f) o = o ∨ (l.map Eff.rm).foldl (fileEff f) o = none := by
  induction l with
  | nil => exact Or.inl rfl
  | cons x l ih =>
    rw [List.map_cons, List.foldl_cons]
    by_cases hx : x = f
    · right
      have : fileEff f o (.rm x) = none := by simp [fileEff, hx]
      rw [this]; exact fold_rm_none f l
    · have : fileEff f o (.rm x) = o := by simp [fileEff, hx]
      rw [this]; exact ih

theorem fold_rm_mem (f : FileName) (l : List FileName) (h : f ∈ l) (o : Option Bytes) : (l.map Eff.rm).foldl (fileEff f) o = none := by
  induction l generalizing o with
  | nil => cases h
  | cons x l ih =>
    rw [List.map_cons, List.foldl_cons]
    by_cases hl : f ∈ l
    · exact ih hl _
    · have hx : x = f := by
        rcases List.mem_cons.1 h with h | h
        · exact h.symm
        · exact absurd h hl
      have : fileEff f o (.rm x) = none := by simp [fileEff, hx]
      rw [this]; exact fold_rm_none f l

theorem fold_prefix (f : FileName) (bl : List Bytes) (q : List Eff) (hq : q <+: .create f :: bl.map (.append f)) (hne : q ≠ []) :
    ∃ bs, q.foldl (fileEff f) none = some bs ∧ bs <+: bl.flatten := by
  cases q with
  | nil => exact absurd rfl hne
  | cons e q =>
    obtain ⟨rfl, hq'⟩ := List.cons_prefix_cons.1 hq
    have h0 : fileEff f none (.create f) = some [] := by simp [fileEff]
    rw [List.foldl_cons, h0]
    have : q = (bl.take q.length).map (.append f) := by
      rw [List.map_take]
      exact List.prefix_iff_eq_take.1 hq'
    rw [this, fold_appends, List.nil_append]
    refine ⟨_, rfl, ?_⟩
    conv => rhs; rw [← List.take_append_drop q.length bl, List.flatten_append]
    exact List.prefix_append _ _

/-- **C37** (partial): at every crash point of every execution of `save`, a later `load` fails, or all files of the old map are still there unchanged, or the new header is complete, every storage file
exists, and each of them contains an initial piece of its new contents. -/
theorem C37_crash_states_partial (io : Io K P) (F : Fmt D) (rb : Header K P d → (Nat → List (Idx d × D)) → Option M) (old : Option Dir) (hb : Bytes) (sb : Nat → Bytes)
    (t : SaveTrace d old hb sb) (p : List Eff) (hp : p <+: t.effects) (canOpen : Nat → Bool) (sched : List Nat) :
    loadDir io d F rb canOpen sched (runEffs old p) = .fails ∨
    (∃ dir0 dir, old = some dir0 ∧ runEffs old p = some dir ∧ dir .header = dir0 .header ∧ ∀ c, c < 2 ^ d → dir (.store c) = dir0 (.store c)) ∨
    (∃ dir, runEffs old p = some dir ∧ dir .header = some hb ∧ ∀ c, c < 2 ^ d → ∃ bs, dir (.store c) = some bs ∧ bs <+: sb c) := by
  have hfail : ∀ dir : Dir, runEffs old p = some dir → (dir .header = none ∨ ∃ c, c < 2 ^ d ∧ dir (.store c) = none) →
      loadDir io d F rb canOpen sched (runEffs old p) = .fails := by
    intro dir e h; rw [e]; exact loadDir_fails io F rb canOpen sched dir h
  unfold SaveTrace.effects at hp
  rcases prefix_append_cases hp with hp | ⟨q, rfl, hq⟩
  · rcases prefix_append_cases hp with hp | ⟨q, rfl, hq⟩
    · -- during the removal
      cases old with
      | none =>
        left
        have : p = [] := by unfold SaveTrace.removal at hp; simpa using hp
        rw [this]; rfl
      | some dir0 =>
        have hrem : t.removal = t.removed.map .rm ++ [.rmdir] := by unfold SaveTrace.removal; rw [if_pos (show (some dir0).isSome = true from rfl)]
        rw [hrem] at hp
        rcases prefix_append_cases hp with hp | ⟨q, rfl, hq⟩
        · have hin : ∀ e ∈ p, e.inside := by
            intro e he
            obtain ⟨x, _, rfl⟩ := List.mem_map.1 (hp.subset he); trivial
          have hrun := runEffs_inside p dir0 hin
          have hfile : ∀ f, p.foldl (fileEff f) (dir0 f) = dir0 f ∨ p.foldl (fileEff f) (dir0 f) = none := by
            intro f
            obtain ⟨l, hl⟩ : ∃ l : List FileName, p = l.map .rm := ⟨t.removed.take p.length, by rw [List.map_take]; exact List.prefix_iff_eq_take.1 hp⟩
            rw [hl]; exact fold_rm f l _
          by_cases hgone : (p.foldl (fileEff .header) (dir0 .header)) = dir0 .header ∧ ∀ c, c < 2 ^ d → p.foldl (fileEff (.store c)) (dir0 (.store c)) = dir0 (.store c)
          · exact Or.inr (Or.inl ⟨dir0, _, rfl, hrun, hgone.1, hgone.2⟩)
          · left
            refine hfail _ hrun ?_
            rw [not_and_or] at hgone
            rcases hgone with h | h
            · left
              rcases hfile .header with h' | h'
              · exact absurd h' h
              · exact h'
            · right
              push Not at h
              obtain ⟨c, hc, h⟩ := h
              refine ⟨c, hc, ?_⟩
              rcases hfile (.store c) with h' | h'
              · exact absurd h' h
              · exact h'
        · left
          have hq' : q = [] ∨ q = [.rmdir] := by
            rcases q with _ | ⟨e, q⟩
            · exact Or.inl rfl
            · obtain ⟨rfl, h⟩ := List.cons_prefix_cons.1 hq
              have : q = [] := by simpa using h
              rw [this]; exact Or.inr rfl
          rcases hq' with rfl | rfl
          · -- all files removed
            have hin : ∀ e ∈ t.removed.map Eff.rm ++ [], e.inside := by
              intro e he
              rw [List.append_nil] at he
              obtain ⟨x, _, rfl⟩ := List.mem_map.1 he; trivial
            have hrun := runEffs_inside _ dir0 hin
            refine hfail _ hrun (Or.inr ⟨0, Nat.two_pow_pos d, ?_⟩)
            rw [List.append_nil]
            cases h0 : dir0 (.store 0) with
            | none => exact fold_rm_none _ _
            | some bs => exact fold_rm_mem _ _ (t.removed_all dir0 (.store 0) rfl (by rw [h0]; rfl)) _
          · have : runEffs (some dir0) (t.removed.map Eff.rm ++ [.rmdir]) = none := by rw [← hrem]; exact t.run_removal
            rw [this]; rfl
    · -- while the header is written
      left
      rw [runEffs_append, t.run_removal]
      unfold SaveTrace.headerPart at hq
      rcases q with _ | ⟨e, q⟩
      · rfl
      · obtain ⟨rfl, hq2⟩ := List.cons_prefix_cons.1 hq
        show loadDir io d F rb canOpen sched (runEffs (some fun _ => none) q) = .fails
        have hin : ∀ e ∈ q, e.inside ∧ ∀ c, fileEff (.store c) none e = none := by
          intro e he
          rcases List.mem_cons.1 (hq2.subset he) with rfl | h
          · exact ⟨trivial, fun c => by simp [fileEff]⟩
          · obtain ⟨b, _, rfl⟩ := List.mem_map.1 h
            exact ⟨trivial, fun c => by simp [fileEff]⟩
        rw [runEffs_inside q _ fun e he => (hin e he).1]
        refine loadDir_fails io F rb canOpen sched _ (Or.inr ⟨0, Nat.two_pow_pos d, ?_⟩)
        have : ∀ l : List Eff, (∀ e ∈ l, fileEff (.store 0) none e = none) → l.foldl (fileEff (.store 0)) none = none := by
          intro l
          induction l with
          | nil => intro _; rfl
          | cons e l ih =>
            intro h
            rw [List.foldl_cons, h e List.mem_cons_self]
            exact ih fun x hx => h x (List.mem_cons_of_mem _ hx)
        exact this q fun e he => (hin e he).2 0
  · -- while the threads write
    obtain ⟨q', hq', rfl⟩ : ∃ q', q' <+: t.threads ∧ q = q'.map Prod.snd := by
      refine ⟨t.threads.take q.length, List.take_prefix _ _, ?_⟩
      rw [List.map_take]
      exact List.prefix_iff_eq_take.1 hq
    obtain ⟨dir, h1, h2, h3⟩ := t.run_threads q' fun e he => hq'.subset he
    have hrun : runEffs old (t.removal ++ t.headerPart ++ q'.map Prod.snd) = some dir := by
      rw [runEffs_append, runEffs_append, t.run_removal, t.run_header, h1]
    have hpre : ∀ c, c < 2 ^ d → (q'.filter fun e => decide (e.1 = c)).map Prod.snd <+: .create (.store c) :: (t.storeBlocks c).map (.append (.store c)) := by
      intro c hc
      rw [← t.thread_eq c hc]
      exact (hq'.filter _).map _
    by_cases hall : ∀ c, c < 2 ^ d → (q'.filter fun e => decide (e.1 = c)).map Prod.snd ≠ []
    · right; right
      refine ⟨dir, hrun, h2, ?_⟩
      intro c hc
      obtain ⟨bs, e1, e2⟩ := fold_prefix _ _ _ (hpre c hc) (hall c hc)
      exact ⟨bs, by rw [h3 c, e1], by rw [← t.store_eq c hc]; exact e2⟩
    · left
      push Not at hall
      obtain ⟨c, hc, he⟩ := hall
      refine hfail dir hrun (Or.inr ⟨c, hc, ?_⟩)
      rw [h3 c, he]; rfl

end

section
variable {d : Nat} {K P D : Type} [Inhabited D] {g : Nat → Nat} {g' : Nat} {exp : D → Bool}

/-- **C37 refuted**: for every non-empty reachable dynamic map there is an execution of `save` (all files are created before the first buffer is flushed) and a crash point after which `load` succeeds and
returns a map that has all bundles but no distribution at all. -/
theorem C37_crash_refuted (hd : 0 < d) (m : MapObj (octreeBackend d) K P D) (hR : MapReachable (.dynamic g g') exp m.st) (hne : m.st.bundleIndices ≠ [])
    (io : Io K P) (F : Fmt D) (hp : io.pose.Ok m.pose) (hr : io.real.Ok m.resolution) (h : Header K P d) (hh : dynHeader m = some h)
    (old : Option Dir) (removed : List FileName) (hrem : ∀ dir f, old = some dir → (dir f).isSome = true → f ∈ removed)
    (canOpen : Nat → Bool) (sched : List Nat) (hopen : ∀ c ∈ sched, canOpen c = true) (hj : (Threads.run canOpen sched).Joined (2 ^ d))
    (f : Nat → Nat) (f' : Nat) (junk : Nat → D) :
    ∃ (t : SaveTrace d old (headerBytes io h) (storeFiles io F m)) (p : List Eff) (m' : MapObj (octreeBackend d) K P D), p <+: t.effects ∧
      loadDir io d F (rebuildDynamic f f' junk) canOpen sched (runEffs old p) = .loaded m' ∧
      (∀ bi, bi ∈ m'.st.bundleIndices ↔ bi ∈ m.st.bundleIndices) ∧ ∀ c, c < 2 ^ d → ∀ k, m'.st.content c k = none := by
  let t := SaveTrace.createFirst d old (headerBytes io h) (storeFiles io F m) removed hrem
  let q : List (Nat × Eff) := (List.range (2 ^ d)).map fun c => (c, .create (.store c))
  have hq : q <+: t.threads := List.prefix_append _ _
  obtain ⟨x1, x2, x3, x4, x5, x6⟩ := dyn_readHeader hd io hR.spec.1 hne hp hr h hh
  obtain ⟨dir, h1, h2, h3⟩ := t.run_threads q fun e he => hq.subset he
  have hrun : runEffs old (t.removal ++ t.headerPart ++ q.map Prod.snd) = some dir := by
    rw [runEffs_append, runEffs_append, t.run_removal, t.run_header, h1]
  have hst : ∀ c, c < 2 ^ d → dir (.store c) = some [] := by
    intro c hc
    rw [h3 c]
    have key : (List.range (2 ^ d)).filter (fun x => decide (x = c)) = [c] := by
      have h1 : (List.range (2 ^ d)).filter (fun x => decide (x = c)) = List.replicate ((List.range (2 ^ d)).count c) c := by
        rw [← List.filter_beq]
        refine List.filter_congr fun x _ => ?_
        rw [Bool.eq_iff_iff]; simp
      rw [h1, List.count_eq_one_of_mem List.nodup_range (List.mem_range.2 hc)]
      rfl
    have : (q.filter fun e => decide (e.1 = c)).map Prod.snd = [.create (.store c)] := by
      show (((List.range (2 ^ d)).map fun c => ((c, .create (.store c)) : Nat × Eff)).filter fun e => decide (e.1 = c)).map Prod.snd = _
      rw [List.filter_map, List.map_map]
      simp only [Function.comp_def]
      rw [key]; rfl
    rw [this]
    simp [fileEff]
  have hrd : readRecords io d F [] = [] := rfl
  obtain ⟨m', y1, _, _, y4, y5⟩ := rebuildDynamic_sub hR.spec.1 f f' junk h x5
    (fun c => if canOpen c then readRecords io d F ((dir (.store c)).getD []) else []) (by
      intro c hc
      rw [hst c hc, Option.getD_some, hrd]
      split <;> exact List.nil_sublist _)
  refine ⟨t, t.removal ++ t.headerPart ++ q.map Prod.snd, m', ?_, ?_, y4, ?_⟩
  · unfold SaveTrace.effects
    exact (List.prefix_append_right_inj _).2 (hq.map _)
  · rw [hrun, loadDir_eq io F _ canOpen sched dir _ h2 (fun c hc => by rw [hst c hc]; rfl) hopen hj, x1, y1]; rfl
  · intro c hc k
    cases hx : m'.st.content c k with
    | none => rfl
    | some x =>
      have := (y5 c hc k x).1 hx
      simp only [hst c hc, Option.getD_some, hrd, ite_self] at this
      cases this

/-- Non-vacuity of the crash theorems: the sample map, saved over an old directory that contained a single storage file. -/
example : ∃ (st : St (octreeBackend 2) Nat) (h : Header Nat Nat 2), st.content 3 ![1, 0] = some 12 ∧
    ∃ (t : SaveTrace 2 (some fun f => if f = .store 2 then some [1, 2, 3] else none) (headerBytes pcIo h) (storeFiles pcIo (distFmt (natCodec 8)) (⟨3, 7, st⟩ : MapObj (octreeBackend 2) Nat Nat Nat)))
      (p : List Eff) (m' : MapObj (octreeBackend 2) Nat Nat Nat), p <+: t.effects ∧
      loadDir pcIo 2 (distFmt (natCodec 8)) (rebuildDynamic (fun _ => 0) 0 (fun _ => 0)) (fun _ => true) (Threads.sequential (List.range 4))
        (runEffs (some fun f => if f = .store 2 then some [1, 2, 3] else none) p) = .loaded m' ∧ m'.st.content 3 ![1, 0] = none := by
  obtain ⟨st, h1, h2, h3, h4⟩ := sample_saved (fun _ => 5) 9
  obtain ⟨h, hh⟩ := Option.isSome_iff_exists.1 (C31_header_defined (K := Nat) (P := Nat) ⟨3, 7, st⟩ h1 h2)
  obtain ⟨t, p, m', a1, a2, _, a4⟩ := C37_crash_refuted (by decide) (⟨3, 7, st⟩ : MapObj (octreeBackend 2) Nat Nat Nat) h1 h2 pcIo (distFmt (natCodec 8))
    (by show (3 : Nat) < 256 ^ 24; norm_num) (by show (7 : Nat) < 256 ^ 8; norm_num) h hh (some fun f => if f = .store 2 then some [1, 2, 3] else none) [.store 2]
    (by
      intro dir f e hs
      cases e
      by_cases hf : f = .store 2
      · rw [hf]; exact List.mem_singleton.2 rfl
      · simp [hf] at hs)
    (fun _ => true) (Threads.sequential (List.range 4)) (fun _ _ => rfl) (Threads.ordered_joined _ 4) (fun _ => 0) 0 (fun _ => 0)
  exact ⟨st, h, h3, t, p, m', a1, a2, a4 3 (by decide) _⟩

end
end Ndt
