import Verif.Proofs.SerialMore

/-! Property theorems C31–C34: saving and loading maps. -/

namespace Ndt
open St

section
variable {d : Nat} {K P D : Type} [Inhabited D] {g : Nat → Nat} {g' : Nat} {exp : D → Bool}

/-- the contents of a map can be represented by its file format -/
def Storable {B : Backend d} (io : Io K P) (F : Fmt D) (m : MapObj B K P D) : Prop :=
  io.pose.Ok m.pose ∧ io.real.Ok m.resolution ∧ ∀ c k x, m.st.content c k = some x → F.codec.Ok x

/-- the files of a saved map -/
abbrev storeFiles {B : Backend d} (io : Io K P) (F : Fmt D) (m : MapObj B K P D) : Nat → Bytes := fun c => storageBytes io F m.st.heap (m.st.storage c)

theorem storeFiles_eq {B : Backend d} (io : Io K P) (F : Fmt D) (m : MapObj B K P D) (c : Nat) : storeFiles io F m c = (records m.st c).flatMap (recCodec io d F).enc :=
  storageBytes_eq io F m.st c

theorem records_ok {L : (octreeBackend d).Lawful} (io : Io K P) (F : Fmt D) (m : MapObj (octreeBackend d) K P D) (hR : RInv (octreeLawful d) true m.st) (hL : L = octreeLawful d)
    (hc : ∀ c k x, m.st.content c k = some x → F.codec.Ok x) (c : Nat) : ∀ e ∈ records m.st c, (recCodec io d F).Ok e := by
  subst hL
  rintro ⟨k, x⟩ he
  have hI : RInv (octreeLawful d) true m.st := hR
  have h1 := (mem_records (octreeLawful d) m.st hI.inv c k x).1 he
  have h2 : (m.st.abs.content c k).isSome = true := by show (m.st.content c k).isSome = true; rw [h1]; rfl
  obtain ⟨hc', bi, hb, e⟩ := (hI.ainv.used c k).1 h2
  have hr := (dyn_range hR bi ((mem_bundleIndices (octreeLawful d) m.st hI.inv bi).2 ((mem_allocated_iff m.st bi).1 hb))).2 c hc'
  rw [e] at hr
  exact ⟨Codec.array_ok _ _ _ fun a => io.int_ok _ (by have := (hr a).1; show -2147483648 ≤ k a; omega) (by have := (hr a).2; show k a ≤ 2147483647; omega), hc c k x h1⟩

/-! ### C31 -/

/-- loading a saved map: the visible state and the invariants -/
theorem load_restores (hd : 0 < d) (m : MapObj (octreeBackend d) K P D) (hR : RInv (octreeLawful d) true m.st) (hne : m.st.bundleIndices ≠ [])
    (io : Io K P) (F : Fmt D) (hF : F.reported = F.codec.size) (hok : Storable io F m) (h : Header K P d) (hh : dynHeader m = some h)
    (old : Option Dir) (t : SaveTrace d old (headerBytes io h) (storeFiles io F m))
    (canOpen : Nat → Bool) (sched : List Nat) (hopen : ∀ c ∈ sched, canOpen c = true) (hj : (Threads.run canOpen sched).Joined (2 ^ d))
    (f : Nat → Nat) (f' : Nat) (junk : Nat → D) :
    ∃ m', loadDir io d F (rebuildDynamic f f' junk) canOpen sched (runEffs old t.effects) = .loaded m' ∧
      m'.pose = m.pose ∧ m'.resolution = m.resolution ∧ Spec.Restored m.st m'.st ∧ RInv (octreeLawful d) true m'.st := by
  obtain ⟨dir, h1, h2, h3⟩ := t.run_all
  obtain ⟨x1, x2, x3, x4, x5, x6⟩ := dyn_readHeader hd io hR hne hok.1 hok.2.1 h hh
  rw [h1, loadDir_eq io F _ canOpen sched dir _ h2 (fun c hc => by rw [h3 c hc]; rfl) hopen hj, x1]
  obtain ⟨m', y1, y2, y3, y4, y5, _⟩ := rebuildDynamic_restores hR f f' junk h x5 x4 x6
    (fun c => if canOpen c then readRecords io d F ((dir (.store c)).getD []) else []) (by
      intro c hc
      rw [if_pos (hopen c (joined_mem hj hc)), h3 c hc, Option.getD_some, storeFiles_eq]
      exact readRecords_exact io hd F hF _ (records_ok io F m hR rfl hok.2.2 c))
  exact ⟨m', by rw [y1]; rfl, y2.trans x2, y3.trans x3, y5, y4⟩

/-- **C31.** Saving any non-empty reachable dynamic map over any previous contents `old` of the directory, with any division of the writes into blocks and any interleaving of the writer threads (`t`),
and loading it with any complete schedule of the loader threads yields a map with the same origin, resolution, bounds, bundles and contents of every distribution. (`hF`: the
reader of the distribution type reports as many bytes as it consumes, see `C31_formats`; `Storable`: the numbers in the map can be represented by the file format.) -/
theorem C31_dynamic_roundtrip (hd : 0 < d) (m : MapObj (octreeBackend d) K P D) (hR : MapReachable (.dynamic g g') exp m.st) (hne : m.st.bundleIndices ≠ [])
    (io : Io K P) (F : Fmt D) (hF : F.reported = F.codec.size) (hok : Storable io F m) (h : Header K P d) (hh : dynHeader m = some h)
    (old : Option Dir) (t : SaveTrace d old (headerBytes io h) (storeFiles io F m))
    (canOpen : Nat → Bool) (sched : List Nat) (hopen : ∀ c ∈ sched, canOpen c = true) (hj : (Threads.run canOpen sched).Joined (2 ^ d))
    (f : Nat → Nat) (f' : Nat) (junk : Nat → D) :
    ∃ m', loadDir io d F (rebuildDynamic f f' junk) canOpen sched (runEffs old t.effects) = .loaded m' ∧
      m'.pose = m.pose ∧ m'.resolution = m.resolution ∧ Spec.Restored m.st m'.st := by
  obtain ⟨m', y1, y2, y3, y4, _⟩ := load_restores hd m hR.spec.1 hne io F hF hok h hh old t canOpen sched hopen hj f f' junk
  exact ⟨m', y1, y2, y3, y4⟩

/-- **C31** (well-defined): the header of a non-empty reachable map is computed without overflow. -/
theorem C31_header_defined (m : MapObj (octreeBackend d) K P D) (hR : MapReachable (.dynamic g g') exp m.st) (hne : m.st.bundleIndices ≠ []) : (dynHeader m).isSome = true := by
  rw [dynHeader_eq hR.spec.1 hne]; rfl

/-- **C31** (formats): NDT distributions and occupancy distributions are read with exact byte counts; a stored occupancy distribution is representable if its numbers are and it is not an empty distribution (which
cannot occur, C27). -/
theorem C31_formats {E : Type} (C : Codec D) (N : Codec Nat) (S : Codec (Multiset E)) :
    (distFmt C).reported = (distFmt C).codec.size ∧ (occFmt N S).reported = (occFmt N S).codec.size ∧
    ∀ o : Occ Nat E, N.Ok o.free → (∀ s, o.data = some s → s ≠ 0 ∧ S.Ok s) → S.Ok 0 → (occFmt N S).codec.Ok o := by
  refine ⟨rfl, rfl, ?_⟩
  intro o h1 h2 h3
  refine ⟨h1, ?_, ?_⟩
  · cases hd : o.data with
    | none => exact h3
    | some s => exact (h2 s hd).2
  · intro hd
    exact (h2 0 hd).1 rfl

/-- A reachable 2D map with four bundles (one update and an expansion would give more); used as example below. -/
theorem sample_saved_pos (g : Nat → Nat) (g' : Nat) : ∃ st : St (octreeBackend 2) Nat, MapReachable (.dynamic g g') (fun _ => false) st ∧ st.bundleIndices ≠ [] ∧
    st.content 3 ![1, 0] = some 12 ∧ ∀ c k x, st.content c k = some x → 0 < x ∧ x < 256 ^ 8 := by
  have hI : RInv (octreeLawful 2) true ((Kind.dynamic g g').init Nat) := (Kind.dynamic (d := 2) g g').init_rinv
  have hgood : ∀ b : Idx 2, Spec.InRange b → (∀ c, c < 4 → Spec.InRange (generateIndex b c)) → ((Kind.dynamic g g').init Nat).abs.Good b :=
    fun b h1 h2 => ⟨decide_eq_true h1, fun c hc => decide_eq_true (h2 c (by simpa using hc))⟩
  obtain ⟨st1, h1, i1, a1, _⟩ := update_spec (octreeLawful 2) true ![1, -1] (fun x => x + 5) _ hI.inv (hgood _ (by decide) (by decide))
  have hr1 := RInv.upds (L := octreeLawful 2) (dyn := true) [(![1, -1], fun x => x + 5)] _ st1 hI (by simp [updateList, h1])
  obtain ⟨st2, h2, i2, a2, _⟩ := update_spec (octreeLawful 2) true ![2, -1] (fun x => x + 7) st1 hr1.1.inv
    (by rw [hr1.2.2.good]; exact hgood _ (by decide) (by decide))
  have hu : updateList true [(![1, -1], fun x => x + 5), (![2, -1], fun x => x + 7)] ((Kind.dynamic (d := 2) g g').init Nat) = some st2 := by
    simp [updateList, h1, h2]
  have hR : MapReachable (.dynamic g g') (fun _ => false) st2 := .updates (k := .dynamic g g') [(![1, -1], fun x => x + 5), (![2, -1], fun x => x + 7)] _ st2 .init (fun _ _ => rfl) hu
  have hc : ∀ c k, st2.content c k = st2.abs.content c k := fun _ _ => rfl
  have e0 : ((Kind.dynamic (d := 2) g g').init Nat).abs.content = fun _ _ => none := by
    funext c k; exact Kind.init_content ..
  have f0 : ((Kind.dynamic (d := 2) g g').init Nat).abs.flags = fun _ => none := by
    funext k; exact Kind.init_flags ..
  have hcont : ∀ c k, st2.abs.content c k = (if c < 2 ^ 2 ∧ generateIndex ![2, -1] c = k then
      some ((if c < 2 ^ 2 ∧ generateIndex ![1, -1] c = k then 5 else 0) + 7) else if c < 2 ^ 2 ∧ generateIndex ![1, -1] c = k then some 5 else none : Option Nat) := by
    intro c k
    have ne : (![2, -1] : Idx 2) ≠ ![1, -1] := by decide
    rw [a2, a1]
    unfold Abs.upd Abs.alloc
    simp only [f0, e0, Option.isSome_none, Bool.false_eq_true, if_false, Function.update_of_ne ne, Option.getD_none]
    have hdef : (default : Nat) = 0 := rfl
    by_cases p : c < 2 ^ 2 ∧ generateIndex ![2, -1] c = k
    · by_cases q : c < 2 ^ 2 ∧ generateIndex ![1, -1] c = k
      · simp only [if_pos p, if_pos q, Option.map_some, Option.getD_some, hdef]
      · simp only [if_pos p, if_neg q, Option.map_some, Option.getD_none, hdef]
    · by_cases q : c < 2 ^ 2 ∧ generateIndex ![1, -1] c = k
      · simp only [if_neg p, if_pos q, Option.map_some, hdef]
      · simp only [if_neg p, if_neg q]
  refine ⟨st2, hR, ?_, ?_, ?_⟩
  · intro h
    have h' := (mem_bundleIndices (octreeLawful 2) st2 i2 ![2, -1]).2 (by
      rw [← mem_allocated_iff, a2, Abs.allocated_upd]; exact Set.mem_insert _ _)
    rw [h] at h'; cases h'
  · rw [hc, hcont]
    have e1 : generateIndex (![2, -1] : Idx 2) 3 = ![1, 0] := by decide
    have e2 : generateIndex (![1, -1] : Idx 2) 3 = ![1, 0] := by decide
    rw [e1, e2]; rfl
  · intro c k x hx
    rw [hc, hcont] at hx
    norm_num
    split at hx
    · cases hx; split <;> omega
    · split at hx
      · cases hx; omega
      · cases hx

theorem sample_saved (g : Nat → Nat) (g' : Nat) : ∃ st : St (octreeBackend 2) Nat, MapReachable (.dynamic g g') (fun _ => false) st ∧ st.bundleIndices ≠ [] ∧
    st.content 3 ![1, 0] = some 12 ∧ ∀ c k x, st.content c k = some x → x < 256 ^ 8 := by
  obtain ⟨st, h1, h2, h3, h4⟩ := sample_saved_pos g g'
  exact ⟨st, h1, h2, h3, fun c k x hx => (h4 c k x hx).2⟩

/-- Non-vacuity of C31: a reachable 2D map with several bundles, little-endian PC formats, a save over an empty path, four loader threads that run in reverse order. -/
example : ∃ (st : St (octreeBackend 2) Nat) (h : Header Nat Nat 2) (t : SaveTrace 2 none (headerBytes pcIo h) (storeFiles pcIo (distFmt (natCodec 8)) ⟨3, 7, st⟩)) (m' : MapObj (octreeBackend 2) Nat Nat Nat),
    MapReachable (.dynamic (fun _ => 5) 9) (fun _ => false) st ∧ dynHeader ⟨3, 7, st⟩ = some h ∧
    loadDir pcIo 2 (distFmt (natCodec 8)) (rebuildDynamic (fun _ => 0) 0 (fun _ => 77)) (fun _ => true) [3, 3, 3, 2, 2, 2, 1, 1, 1, 0, 0, 0] (runEffs none t.effects) = .loaded m' ∧
    m'.st.content 3 ![1, 0] = some 12 := by
  obtain ⟨st, h1, h2, h3, h4⟩ := sample_saved (fun _ => 5) 9
  obtain ⟨h, hh⟩ := Option.isSome_iff_exists.1 (C31_header_defined (K := Nat) (P := Nat) ⟨3, 7, st⟩ h1 h2)
  have hst : Storable pcIo (distFmt (natCodec 8)) (⟨3, 7, st⟩ : MapObj (octreeBackend 2) Nat Nat Nat) := by
    refine ⟨?_, ?_, fun c k x hx => h4 c k x hx⟩
    · show (3 : Nat) < 256 ^ 24; norm_num
    · show (7 : Nat) < 256 ^ 8; norm_num
  let t := SaveTrace.inOrder 2 none (headerBytes pcIo h) (storeFiles pcIo (distFmt (natCodec 8)) ⟨3, 7, st⟩) [] (fun _ _ e => by cases e)
  obtain ⟨m', y1, _, _, y4⟩ := C31_dynamic_roundtrip (by decide) ⟨3, 7, st⟩ h1 h2 pcIo (distFmt (natCodec 8)) rfl hst h hh none t
    (fun _ => true) [3, 3, 3, 2, 2, 2, 1, 1, 1, 0, 0, 0] (fun _ _ => rfl)
    (by intro c hc
        have : c = 0 ∨ c = 1 ∨ c = 2 ∨ c = 3 := by omega
        rcases this with rfl | rfl | rfl | rfl <;> decide)
    (fun _ => 0) 0 (fun _ => 77)
  exact ⟨st, h, t, m', h1, hh, y1, by rw [y4.contents, h3]⟩

/-! ### C52: the empty map -/

/-- **C52 refuted.** Saving a dynamic map before the first insertion computes `INT_MIN - INT_MAX`, a signed overflow. -/
theorem C52_empty_map_refuted (hd : 0 < d) (g : Nat → Nat) (g' : Nat) (pose : P) (r : K) :
    dynHeader (⟨pose, r, dynInit d D g g'⟩ : MapObj (octreeBackend d) K P D) = none := by
  unfold dynHeader
  rw [if_neg]
  intro h
  have := h ⟨0, hd⟩
  revert this
  show ¬ (intSub (-2147483648) 2147483647).isSome = true
  decide

/-- **C52** (partial): as soon as the map contains a bundle the header is well defined. -/
theorem C52_nonempty_partial (m : MapObj (octreeBackend d) K P D) (hR : MapReachable (.dynamic g g') exp m.st) (hne : m.st.bundleIndices ≠ []) :
    ∃ h, dynHeader m = some h ∧ h.minB = m.st.minB ∧ (∀ a, h.minB a + (h.size a : Int) = m.st.maxB a) ∧ h.indices = m.st.bundleIndices := by
  have hb := dyn_bounds hR.spec.1 hne
  refine ⟨_, dynHeader_eq hR.spec.1 hne, rfl, ?_, rfl⟩
  intro a
  have := hb a
  show m.st.minB a + ((m.st.maxB a - m.st.minB a).toNat : Int) = _
  omega

/-! ### C34: damaged files -/

/-- **C34** (partial): `load` fails whenever the directory, the header file or one of the `2^d` storage files is missing, for every schedule. -/
theorem C34_missing_file_partial {M : Type} (io : Io K P) (F : Fmt D) (rb : Header K P d → (Nat → List (Idx d × D)) → Option M) (canOpen : Nat → Bool) (sched : List Nat) (dir : Option Dir)
    (hm : ∀ files, dir = some files → files .header = none ∨ ∃ c, c < 2 ^ d ∧ files (.store c) = none) :
    loadDir io d F rb canOpen sched dir = .fails := by
  cases dir with
  | none => rfl
  | some files => exact loadDir_fails io F rb canOpen sched files (hm files rfl)

/-- **C34 refuted** (in general): if all files exist and can be opened, `load` never returns false, whatever the files contain. -/
theorem C34_never_rejected_refuted {M : Type} (io : Io K P) (F : Fmt D) (rb : Header K P d → (Nat → List (Idx d × D)) → Option M) (canOpen : Nat → Bool) (sched : List Nat) (files : Dir)
    (hh : (files .header).isSome = true) (hs : ∀ c, c < 2 ^ d → (files (.store c)).isSome = true) (hopen : ∀ c ∈ sched, canOpen c = true)
    (hj : (Threads.run canOpen sched).Joined (2 ^ d)) : loadDir io d F rb canOpen sched (some files) ≠ .fails := by
  obtain ⟨hb, hhb⟩ := Option.isSome_iff_exists.1 hh
  rw [loadDir_eq io F rb canOpen sched files hb hhb hs hopen hj]
  cases rb _ _ with
  | none => intro h; cases h
  | some m => intro h; cases h

/-- **C34 refuted** (truncation): cut the last record off the file of any storage of any reachable map (here: of storage `c`, a proper prefix of the saved file); then `load` succeeds and the map lacks that
distribution. -/
theorem C34_truncated_refuted (hd : 0 < d) (m : MapObj (octreeBackend d) K P D) (hR : MapReachable (.dynamic g g') exp m.st) (hne : m.st.bundleIndices ≠ [])
    (io : Io K P) (F : Fmt D) (hF : F.reported = F.codec.size) (hok : Storable io F m) (h : Header K P d) (hh : dynHeader m = some h) (c : Nat) (hc : c < 2 ^ d)
    (canOpen : Nat → Bool) (sched : List Nat) (hopen : ∀ c ∈ sched, canOpen c = true) (hj : (Threads.run canOpen sched).Joined (2 ^ d))
    (f : Nat → Nat) (f' : Nat) (junk : Nat → D) :
    ∃ (bs : Bytes), bs <+: storeFiles io F m c ∧ bs.length < (storeFiles io F m c).length ∧
      ∀ files : Dir, files .header = some (headerBytes io h) → files (.store c) = some bs → (∀ j, j < 2 ^ d → j ≠ c → files (.store j) = some (storeFiles io F m j)) →
      ∃ m', loadDir io d F (rebuildDynamic f f' junk) canOpen sched (some files) = .loaded m' ∧ ∃ k, m.st.content c k ≠ none ∧ m'.st.content c k = none := by
  have hI : RInv (octreeLawful d) true m.st := hR.spec.1
  have hrne : records m.st c ≠ [] := by
    obtain ⟨bi, hbi⟩ := List.exists_mem_of_ne_nil _ hne
    have hal : bi ∈ m.st.abs.allocated := (mem_allocated_iff m.st bi).2 ((mem_bundleIndices (octreeLawful d) m.st hI.inv bi).1 hbi)
    have h2 := (hI.ainv.used c (generateIndex bi c)).2 ⟨hc, bi, hal, rfl⟩
    obtain ⟨x, hx⟩ := Option.isSome_iff_exists.1 h2
    intro e
    have := (mem_records (octreeLawful d) m.st hI.inv c (generateIndex bi c) x).2 hx
    rw [e] at this; cases this
  have hsplit : records m.st c = (records m.st c).dropLast ++ [(records m.st c).getLast hrne] := (List.dropLast_append_getLast hrne).symm
  have hrok := records_ok io F m hR.spec.1 rfl hok.2.2
  refine ⟨(records m.st c).dropLast.flatMap (recCodec io d F).enc, ?_, ?_, ?_⟩
  · rw [storeFiles_eq]
    conv => rhs; rw [hsplit, List.flatMap_append]
    exact List.prefix_append _ _
  · rw [storeFiles_eq, Codec.length_flatMap, Codec.length_flatMap, List.length_dropLast]
    have h1 := List.length_pos_iff.2 hrne
    have h2 := recCodec_pos io hd F
    exact Nat.mul_lt_mul_of_pos_right (by omega) h2
  · intro files e1 e2 e3
    obtain ⟨x1, x2, x3, x4, x5, x6⟩ := dyn_readHeader hd io hR.spec.1 hne hok.1 hok.2.1 h hh
    have hpres : ∀ j, j < 2 ^ d → (files (.store j)).isSome = true := by
      intro j hj
      by_cases hjc : j = c
      · subst hjc; rw [e2]; rfl
      · rw [e3 j hj hjc]; rfl
    rw [loadDir_eq io F _ canOpen sched files _ e1 hpres hopen hj, x1]
    have hc' : readRecords io d F ((files (.store c)).getD []) = (records m.st c).dropLast := by
      rw [e2, Option.getD_some]
      exact readRecords_exact io hd F hF _ fun e he => hrok c e (List.dropLast_subset _ he)
    obtain ⟨m', y1, _, _, _, y5⟩ := rebuildDynamic_sub hR.spec.1 f f' junk h x5
      (fun c => if canOpen c then readRecords io d F ((files (.store c)).getD []) else []) (by
        intro j hj'
        rw [if_pos (hopen j (joined_mem hj hj'))]
        by_cases hjc : j = c
        · subst hjc; rw [hc']; exact List.dropLast_sublist _
        · rw [e3 j hj' hjc, Option.getD_some, storeFiles_eq, readRecords_exact io hd F hF _ (hrok j)])
    refine ⟨m', by rw [y1]; rfl, ((records m.st c).getLast hrne).1, ?_, ?_⟩
    · have : ((records m.st c).getLast hrne).1 = ((records m.st c).getLast hrne).1 := rfl
      have hm := (mem_records (octreeLawful d) m.st hI.inv c _ _).1 (List.getLast_mem hrne : ((records m.st c).getLast hrne) ∈ _)
      rw [hm]; simp
    · cases hx : m'.st.content c ((records m.st c).getLast hrne).1 with
      | none => rfl
      | some x =>
        have h1 := (y5 c hc _ x).1 hx
        simp only [hopen c (joined_mem hj hc), if_true] at h1
        rw [hc'] at h1
        have hnd := nodup_records (octreeLawful d) m.st hI.inv c
        rw [hsplit, List.map_append, List.nodup_append] at hnd
        exact absurd rfl (hnd.2.2 _ (List.mem_map.2 ⟨_, h1, rfl⟩) _ (by simp))

/-- Non-vacuity of the truncation theorem: the sample map has a non-empty file for every storage. -/
example : ∃ (st : St (octreeBackend 2) Nat) (h : Header Nat Nat 2) (bs : Bytes), dynHeader ⟨3, 7, st⟩ = some h ∧
    bs.length < (storeFiles pcIo (distFmt (natCodec 8)) (⟨3, 7, st⟩ : MapObj (octreeBackend 2) Nat Nat Nat) 3).length := by
  obtain ⟨st, h1, h2, h3, h4⟩ := sample_saved (fun _ => 5) 9
  obtain ⟨h, hh⟩ := Option.isSome_iff_exists.1 (C31_header_defined (K := Nat) (P := Nat) ⟨3, 7, st⟩ h1 h2)
  have hst : Storable pcIo (distFmt (natCodec 8)) (⟨3, 7, st⟩ : MapObj (octreeBackend 2) Nat Nat Nat) := by
    refine ⟨?_, ?_, fun c k x hx => h4 c k x hx⟩
    · show (3 : Nat) < 256 ^ 24; norm_num
    · show (7 : Nat) < 256 ^ 8; norm_num
  obtain ⟨bs, _, hl, _⟩ := C34_truncated_refuted (by decide) ⟨3, 7, st⟩ h1 h2 pcIo (distFmt (natCodec 8)) rfl hst h hh 3 (by decide) (fun _ => true)
    (Threads.sequential (List.range 4)) (fun _ _ => rfl) (Threads.ordered_joined _ 4) (fun _ => 0) 0 (fun _ => 0)
  exact ⟨st, h, bs, hh, hl⟩

end
end Ndt
