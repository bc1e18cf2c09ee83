import Verif.Props.SerialMore

/-! Property theorems C36 and C37, continued: what a load returns after a crash during save. -/

namespace Ndt
open St

namespace Codec
variable {α : Type}

/-- an initial piece of a file consists of complete records and a rest that is shorter than a record -/
theorem split_prefix (A : Codec α) (hpos : 0 < A.size) : ∀ (l : List α) (bs : Bytes), bs <+: l.flatMap A.enc →
    ∃ (q : Nat) (tail : Bytes), q ≤ l.length ∧ bs = (l.take q).flatMap A.enc ++ tail ∧ tail.length < A.size
  | [], bs, h => ⟨0, bs, le_refl _, by simp, by rw [show bs = [] by simpa using h]; exact hpos⟩
  | x :: l, bs, h => by
    rw [List.flatMap_cons] at h
    rcases prefix_append_cases h with h | ⟨q, rfl, h'⟩
    · by_cases e : bs.length = A.size
      · have : bs = A.enc x := h.eq_of_length (by rw [e, A.len])
        exact ⟨1, [], by simp, by simp [this], hpos⟩
      · exact ⟨0, bs, Nat.zero_le _, by simp, by have := h.length_le; rw [A.len] at this; omega⟩
    · obtain ⟨n, tail, h1, h2, h3⟩ := split_prefix A hpos l q h'
      exact ⟨n + 1, tail, by simpa using h1, by rw [List.take_succ_cons, List.flatMap_cons, List.append_assoc, ← h2], h3⟩

/-- complete records are read back, an incomplete one is decoded from the bytes that are there -/
theorem readLoop_tail (A : Codec α) (tail : Bytes) (ht : tail.length < A.size) : ∀ (l : List α) (f : Nat), (∀ x ∈ l, A.Ok x) → l.length * A.size + tail.length ≤ f →
    readLoop A.size A.size A.dec f (l.length * A.size + tail.length) (l.flatMap A.enc ++ tail) = l ++ (if tail = [] then [] else [A.dec tail])
  | [], f, _, hf => by
    rw [List.length_nil, Nat.zero_mul, Nat.zero_add, List.flatMap_nil, List.nil_append, List.nil_append]
    by_cases e : tail = []
    · subst e; rw [if_pos rfl]; cases f <;> rfl
    · have hp := List.length_pos_iff.2 e
      rw [if_neg e]
      cases f with
      | zero => rw [List.length_nil, Nat.zero_mul, Nat.zero_add] at hf; omega
      | succ f =>
        rw [readLoop, if_neg (by omega), List.take_of_length_le ht.le, List.drop_of_length_le ht.le, show tail.length - A.size = 0 by omega]
        cases f <;> rfl
  | x :: l, f, hok, hf => by
    rw [List.length_cons, Nat.succ_mul] at hf ⊢
    cases f with
    | zero => omega
    | succ f =>
      have e1 : (x :: l).flatMap A.enc ++ tail = A.enc x ++ (l.flatMap A.enc ++ tail) := by rw [List.flatMap_cons, List.append_assoc]
      rw [readLoop, if_neg (by omega), e1]
      have e2 : (A.enc x ++ (l.flatMap A.enc ++ tail)).take A.size = A.enc x := by rw [← A.len x]; exact List.take_left
      have e3 : (A.enc x ++ (l.flatMap A.enc ++ tail)).drop A.size = l.flatMap A.enc ++ tail := by rw [← A.len x]; exact List.drop_left
      rw [e2, e3, A.dec_enc x (hok x List.mem_cons_self), show l.length * A.size + A.size + tail.length - A.size = l.length * A.size + tail.length by omega,
        readLoop_tail A tail ht l f (fun y hy => hok y (List.mem_cons_of_mem _ hy)) (by omega), List.cons_append]

end Codec

section
variable {d : Nat} {K P D : Type}

theorem readRecords_tail (io : Io K P) (F : Fmt D) (hF : F.reported = F.codec.size) (l : List (Idx d × D)) (hl : ∀ e ∈ l, (recCodec io d F).Ok e) (tail : Bytes)
    (ht : tail.length < (recCodec io d F).size) :
    readRecords io d F (l.flatMap (recCodec io d F).enc ++ tail) = l ++ (if tail = [] then [] else [(recCodec io d F).dec tail]) := by
  unfold readRecords
  have : (io.int.array d).size + F.reported = (recCodec io d F).size := by rw [hF]; rfl
  rw [this, List.length_append, Codec.length_flatMap]
  exact Codec.readLoop_tail _ tail ht l _ hl (le_refl _)

end

section
variable {d : Nat} {B : Backend d} {D : Type}

/-- a storage accepts records only at indices it covers, and every index once -/
theorem insertRecords_accepts (L : B.Lawful) : ∀ (l : List (Idx d × D)) (h : Nat → D) (n : Nat) (s : B.Store Nat), L.Inv s → (insertRecords l (h, n, s)).isSome = true →
    (l.map Prod.fst).Nodup ∧ ∀ e ∈ l, B.ok s e.1 = true ∧ B.look s e.1 = none
  | [], _, _, _, _, _ => ⟨List.nodup_nil, fun e he => by cases he⟩
  | (i, v) :: l, h, n, s, hI, hs => by
    rw [insertRecords] at hs
    split at hs
    · rename_i hc
      obtain ⟨hok, hget⟩ := Bool.and_eq_true_iff.1 hc
      have hlook : B.look s i = none := by rw [St.look_of_ok B s i hok]; exact Option.isNone_iff_eq_none.1 hget
      obtain ⟨h1, h2⟩ := insertRecords_accepts L l _ _ _ (L.inv_insert s i n hI hok) hs
      have hli : ∀ j, B.look (B.insert s i n) j = if j = i then some n else B.look s j := fun j => L.look_insert s i j n hI hok hlook
      refine ⟨?_, ?_⟩
      · rw [List.map_cons, List.nodup_cons]
        refine ⟨fun hm => ?_, h1⟩
        obtain ⟨e, he, e1⟩ := List.mem_map.1 hm
        have := (h2 e he).2
        rw [hli, if_pos e1] at this; cases this
      · intro e he
        rcases List.mem_cons.1 he with rfl | he
        · exact ⟨hok, hlook⟩
        · obtain ⟨a, b⟩ := h2 e he
          rw [L.ok_insert] at a
          rw [hli] at b
          refine ⟨a, ?_⟩
          by_cases e1 : e.1 = i
          · rw [if_pos e1] at b; cases b
          · rw [if_neg e1] at b; exact b
    · cases hs

theorem insertStorages_accepts (L : B.Lawful) (fresh : Nat → B.Store Nat) (recs : Nat → List (Idx d × D)) (hF : ∀ c, L.Inv (fresh c)) : ∀ (m c : Nat) (x : (Nat → D) × Nat × (Nat → B.Store Nat)),
    (insertStorages fresh recs c m x).isSome = true → ∀ j, c ≤ j → j < c + m → ((recs j).map Prod.fst).Nodup ∧ ∀ e ∈ recs j, B.ok (fresh j) e.1 = true
  | 0, c, x, _, j, h1, h2 => absurd h2 (by omega)
  | m + 1, c, (h, n, S), hs, j, h1, h2 => by
    rw [insertStorages] at hs
    cases e : insertRecords (recs c) (h, n, fresh c) with
    | none => rw [e] at hs; cases hs
    | some y =>
      rw [e] at hs
      by_cases hc : c = j
      · subst hc
        obtain ⟨k1, k2⟩ := insertRecords_accepts L (recs c) h n (fresh c) (hF c) (by rw [e]; rfl)
        exact ⟨k1, fun e he => (k2 e he).1⟩
      · exact insertStorages_accepts L fresh recs hF m (c + 1) _ hs j (by omega) (by omega)

end

section
variable {d : Nat} {K P D : Type} [Inhabited D] {g : Nat → Nat} {g' : Nat} {exp : D → Bool}

/-- loading arbitrary records with the bundle indices of a map: if it succeeds, the distributions are those that were read -/
theorem rebuildDynamic_any {m : MapObj (octreeBackend d) K P D} (hR : MapReachable (.dynamic g g') exp m.st) (f : Nat → Nat) (f' : Nat) (junk : Nat → D)
    (h : Header K P d) (hi : h.indices = m.st.bundleIndices) (recs : Nat → List (Idx d × D)) (m' : MapObj (octreeBackend d) K P D) (hm : rebuildDynamic f f' junk h recs = some m') :
    m'.pose = h.pose ∧ m'.resolution = h.resolution ∧ (∀ bi, bi ∈ m'.st.bundleIndices ↔ bi ∈ m.st.bundleIndices) ∧
      ∀ c, c < 2 ^ d → ∀ k x, m'.st.content c k = some x ↔ (k, x) ∈ recs c := by
  have hI : RInv (octreeLawful d) true m.st := hR.spec.1
  have hs : (insertStorages (B := octreeBackend d) (fun c => Octree.Tree.empty (f c)) recs 0 (twoPow d) (junk, 0, fun c => Octree.Tree.empty (f c))).isSome = true := by
    unfold rebuildDynamic rebuild at hm
    cases e : insertStorages (B := octreeBackend d) (fun c => Octree.Tree.empty (f c)) recs 0 (twoPow d) (junk, 0, fun c => Octree.Tree.empty (f c)) with
    | none => rw [e] at hm; cases hm
    | some y => rfl
  have hacc := insertStorages_accepts (octreeLawful d) (fun c => Octree.Tree.empty (f c)) recs (fun c => Octree.TInv.empty _) (twoPow d) 0 _ hs
  obtain ⟨st', y1, y2, y3, y4, y5, y6, y7, y8, y9, y10, y11⟩ := rebuild_spec (octreeLawful d) (fun c => Octree.Tree.empty (f c)) (Octree.Tree.empty f') recs h.indices
    h.minB (fun a => h.minB a + (h.size a : Int)) junk (fun c => Octree.TInv.empty _) (fun c k => octree_look_empty _ k) (Octree.TInv.empty _) (fun k => octree_look_empty _ k)
    (fun c hc => hacc c (Nat.zero_le _) (by rw [Nat.zero_add, twoPow_eq]; exact hc))
    (by rw [hi]; exact nodup_bundleIndices _ m.st hI.inv)
    (by
      intro bi hb
      rw [hi] at hb
      have := dyn_range hR.spec.1 bi hb
      exact ⟨decide_eq_true this.1, fun c hc => decide_eq_true (this.2 c hc)⟩)
  unfold rebuildDynamic at hm
  rw [y1, Option.map_some] at hm
  cases hm
  refine ⟨rfl, rfl, ?_, fun c hc => y8 c hc⟩
  intro bi
  have e1 : bi ∈ st'.bundleIndices ↔ (st'.bundle bi).isSome = true := by
    unfold St.bundleIndices St.bundle
    rw [List.mem_map]
    constructor
    · rintro ⟨⟨i, b⟩, hb, rfl⟩
      rw [((octreeLawful d).mem_traverse _ y3 i b).1 hb]; rfl
    · intro hb
      obtain ⟨b, hb⟩ := Option.isSome_iff_exists.1 hb
      exact ⟨(bi, b), ((octreeLawful d).mem_traverse _ y3 bi b).2 hb, rfl⟩
  show bi ∈ st'.bundleIndices ↔ _
  rw [e1, ← hi]
  constructor
  · intro hs
    by_contra hn
    rw [y10 bi hn] at hs; cases hs
  · intro hb
    obtain ⟨b, hb', _⟩ := y11 bi hb
    rw [hb']; rfl

/-- loading other contents for some of the distributions of a map -/
theorem rebuildDynamic_keys {m : MapObj (octreeBackend d) K P D} (hR : MapReachable (.dynamic g g') exp m.st) (f : Nat → Nat) (f' : Nat) (junk : Nat → D)
    (h : Header K P d) (hi : h.indices = m.st.bundleIndices) (recs : Nat → List (Idx d × D)) (hrecs : ∀ c, c < 2 ^ d → ((recs c).map Prod.fst).Sublist ((records m.st c).map Prod.fst)) :
    ∃ m', rebuildDynamic f f' junk h recs = some m' := by
  have hI : RInv (octreeLawful d) true m.st := hR.spec.1
  have hmem := mem_bundleIndices (octreeLawful d) m.st hI.inv
  obtain ⟨st', y1, _⟩ := rebuild_spec (octreeLawful d) (fun c => Octree.Tree.empty (f c)) (Octree.Tree.empty f') recs h.indices
    h.minB (fun a => h.minB a + (h.size a : Int)) junk (fun c => Octree.TInv.empty _) (fun c k => octree_look_empty _ k) (Octree.TInv.empty _) (fun k => octree_look_empty _ k)
    (by
      intro c hc
      refine ⟨(hrecs c hc).nodup (nodup_records (octreeLawful d) m.st hI.inv c), ?_⟩
      rintro ⟨k, y⟩ he
      obtain ⟨⟨k', x⟩, hx, e0⟩ := List.mem_map.1 ((hrecs c hc).subset (List.mem_map.2 ⟨_, he, rfl⟩))
      obtain rfl : k' = k := e0
      have h1 := (mem_records (octreeLawful d) m.st hI.inv c k' x).1 hx
      have h2 : (m.st.abs.content c k').isSome = true := by show (m.st.content c k').isSome = true; rw [h1]; rfl
      obtain ⟨_, bi, hb, e⟩ := (hI.ainv.used c k').1 h2
      have := (dyn_range hR.spec.1 bi ((hmem bi).2 ((mem_allocated_iff m.st bi).1 hb))).2 c hc
      rw [e] at this
      exact decide_eq_true this)
    (by rw [hi]; exact nodup_bundleIndices _ m.st hI.inv)
    (by
      intro bi hb
      rw [hi] at hb
      have := dyn_range hR.spec.1 bi hb
      exact ⟨decide_eq_true this.1, fun c hc => decide_eq_true (this.2 c hc)⟩)
  exact ⟨⟨h.pose, h.resolution, st'⟩, by unfold rebuildDynamic; rw [y1]; rfl⟩

/-- what is read from an initial piece of the file of a storage -/
theorem readRecords_prefix (hd : 0 < d) (m : MapObj (octreeBackend d) K P D) (hR : MapReachable (.dynamic g g') exp m.st) (io : Io K P) (F : Fmt D) (hF : F.reported = F.codec.size) (hok : Storable io F m)
    (c : Nat) (bs : Bytes) (hb : bs <+: storeFiles io F m c) :
    ∃ (q : Nat) (torn : List (Idx d × D)), readRecords io d F bs = (records m.st c).take q ++ torn ∧ torn.length ≤ 1 ∧ ((recCodec io d F).size ∣ bs.length → torn = []) := by
  rw [storeFiles_eq] at hb
  obtain ⟨q, tail, h1, rfl, h3⟩ := Codec.split_prefix _ (recCodec_pos io hd F) _ _ hb
  refine ⟨q, if tail = [] then [] else [(recCodec io d F).dec tail], ?_, by split <;> simp, fun hdvd => if_pos ?_⟩
  · exact readRecords_tail io F hF _ (fun e he => records_ok io F m hR.spec.1 rfl hok.2.2 c e (List.mem_of_mem_take he)) tail h3
  · rw [List.length_append, Codec.length_flatMap] at hdvd
    have h4 : (recCodec io d F).size ∣ tail.length := (Nat.dvd_add_right (Dvd.intro_left _ rfl)).1 hdvd
    exact List.length_eq_zero_iff.1 (Nat.eq_zero_of_dvd_of_lt h4 h3)

/-- **C37 (partial).** Crash a save of any non-empty reachable dynamic map at any point of any execution, and load the directory. Then `load` fails; or it does exactly what it did before the save; or it leaves the contract of a storage; or it
returns a map with the origin, the resolution and the bundles of the new map, in which every distribution is missing or as in the new map, apart from at most one distribution per storage. Missing: `load` can return such an incomplete
map (`C37_crash_refuted`), and the exception is real (`C37_torn_refuted`). -/
theorem C37_after_crash_partial (hd : 0 < d) (m : MapObj (octreeBackend d) K P D) (hR : MapReachable (.dynamic g g') exp m.st) (hne : m.st.bundleIndices ≠ [])
    (io : Io K P) (F : Fmt D) (hF : F.reported = F.codec.size) (hok : Storable io F m) (h : Header K P d) (hh : dynHeader m = some h)
    (old : Option Dir) (t : SaveTrace d old (headerBytes io h) (storeFiles io F m)) (p : List Eff) (hp : p <+: t.effects)
    (canOpen : Nat → Bool) (sched : List Nat) (hopen : ∀ c ∈ sched, canOpen c = true) (hj : (Threads.run canOpen sched).Joined (2 ^ d))
    (f : Nat → Nat) (f' : Nat) (junk : Nat → D) :
    loadDir io d F (rebuildDynamic f f' junk) canOpen sched (runEffs old p) = .fails ∨
    loadDir io d F (rebuildDynamic f f' junk) canOpen sched (runEffs old p) = loadDir io d F (rebuildDynamic f f' junk) canOpen sched old ∨
    loadDir io d F (rebuildDynamic f f' junk) canOpen sched (runEffs old p) = .undefined ∨
    ∃ m', loadDir io d F (rebuildDynamic f f' junk) canOpen sched (runEffs old p) = .loaded m' ∧ m'.pose = m.pose ∧ m'.resolution = m.resolution ∧
      (∀ bi, bi ∈ m'.st.bundleIndices ↔ bi ∈ m.st.bundleIndices) ∧
      ∀ c, c < 2 ^ d → ∃ torn : Idx d, ∀ k, k ≠ torn → m'.st.content c k = none ∨ m'.st.content c k = m.st.content c k := by
  have hI : RInv (octreeLawful d) true m.st := hR.spec.1
  rcases C37_crash_states_partial io F (rebuildDynamic f f' junk) old _ _ t p hp canOpen sched with h1 | ⟨dir0, dir, h1, h2, h3, h4⟩ | ⟨dir, h1, h2, h3⟩
  · exact Or.inl h1
  · right; left
    rw [h2, h1]
    have e1 : ((List.range (twoPow d)).all fun c => (dir (.store c)).isSome) = ((List.range (twoPow d)).all fun c => (dir0 (.store c)).isSome) := by
      rw [Bool.eq_iff_iff, List.all_eq_true, List.all_eq_true]
      constructor <;> intro ha c hc <;> have := ha c hc <;> rw [List.mem_range, twoPow_eq] at hc
      · rwa [h4 c hc] at this
      · rwa [h4 c hc]
    have hopen' : ∀ hb, loadStores io d F (rebuildDynamic f f' junk (readHeader io d hb)) canOpen sched dir = loadStores io d F (rebuildDynamic f f' junk (readHeader io d hb)) canOpen sched dir0 := by
      intro hb
      have e2 : ∀ (recs recs' : Nat → List (Idx d × D)), (∀ c, c < 2 ^ d → recs c = recs' c) → ∀ (fresh : Nat → (octreeBackend d).Store Nat) (n c : Nat) (x), c + n ≤ 2 ^ d →
          insertStorages fresh recs c n x = insertStorages fresh recs' c n x := by
        intro recs recs' hr fresh n
        induction n with
        | zero => intro c x _; rfl
        | succ n ih =>
          rintro c ⟨a, b, S⟩ hcn
          rw [insertStorages, insertStorages, hr c (by omega)]
          cases insertRecords (recs' c) (a, b, fresh c) with
          | none => rfl
          | some y => exact ih _ _ (by omega)
      unfold loadStores rebuildDynamic rebuild
      rw [e2 (fun c => if canOpen c then readRecords io d F ((dir (.store c)).getD []) else []) (fun c => if canOpen c then readRecords io d F ((dir0 (.store c)).getD []) else [])
        (fun c hc => by simp only [h4 c hc]) _ _ 0 _ (by rw [Nat.zero_add, twoPow_eq])]
    unfold loadDir
    simp only [e1, h3, hopen']
  · right; right
    obtain ⟨x1, x2, x3, x4, x5, x6⟩ := dyn_readHeader hd io hR.spec.1 hne hok.1 hok.2.1 h hh
    rw [h1, loadDir_eq io F _ canOpen sched dir _ h2 (fun c hc => by obtain ⟨bs, e, _⟩ := h3 c hc; rw [e]; rfl) hopen hj, x1]
    cases hm : rebuildDynamic f f' junk h (fun c => if canOpen c then readRecords io d F ((dir (.store c)).getD []) else []) with
    | none => exact Or.inl rfl
    | some m' =>
      right
      obtain ⟨y1, y2, y3, y4⟩ := rebuildDynamic_any hR f f' junk h x5 _ m' hm
      refine ⟨m', rfl, y1.trans x2, y2.trans x3, y3, fun c hc => ?_⟩
      obtain ⟨bs, e, hbs⟩ := h3 c hc
      obtain ⟨q, torn, z1, z2, _⟩ := readRecords_prefix hd m hR io F hF hok c bs hbs
      have hk : ∀ k x, m'.st.content c k = some x ↔ (k, x) ∈ (records m.st c).take q ++ torn := by
        intro k x
        rw [y4 c hc k x]
        simp only [hopen c (joined_mem hj hc), if_true, e, Option.getD_some, z1]
      refine ⟨(torn.map Prod.fst).headD 0, fun k hkt => ?_⟩
      cases hx : m'.st.content c k with
      | none => exact Or.inl rfl
      | some x =>
        right
        rcases List.mem_append.1 ((hk k x).1 hx) with hm' | hm'
        · exact ((mem_records (octreeLawful d) m.st hI.inv c k x).1 (List.mem_of_mem_take hm')).symm
        · exfalso
          match torn, z2, hm' with
          | [e], _, hm' =>
            rw [List.mem_singleton] at hm'
            subst hm'
            exact hkt rfl

/-- **C37 (partial, record boundaries).** If moreover every storage file ends between two records, the load succeeds and every distribution is missing or as in the new map. -/
theorem C37_record_boundaries_partial (hd : 0 < d) (m : MapObj (octreeBackend d) K P D) (hR : MapReachable (.dynamic g g') exp m.st) (hne : m.st.bundleIndices ≠ [])
    (io : Io K P) (F : Fmt D) (hF : F.reported = F.codec.size) (hok : Storable io F m) (h : Header K P d) (hh : dynHeader m = some h)
    (dir : Dir) (h1 : dir .header = some (headerBytes io h)) (h2 : ∀ c, c < 2 ^ d → ∃ bs, dir (.store c) = some bs ∧ bs <+: storeFiles io F m c ∧ (recCodec io d F).size ∣ bs.length)
    (canOpen : Nat → Bool) (sched : List Nat) (hopen : ∀ c ∈ sched, canOpen c = true) (hj : (Threads.run canOpen sched).Joined (2 ^ d))
    (f : Nat → Nat) (f' : Nat) (junk : Nat → D) :
    ∃ m', loadDir io d F (rebuildDynamic f f' junk) canOpen sched (some dir) = .loaded m' ∧ m'.pose = m.pose ∧ m'.resolution = m.resolution ∧
      (∀ bi, bi ∈ m'.st.bundleIndices ↔ bi ∈ m.st.bundleIndices) ∧
      ∀ c, c < 2 ^ d → ∀ k, m'.st.content c k = none ∨ m'.st.content c k = m.st.content c k := by
  have hI : RInv (octreeLawful d) true m.st := hR.spec.1
  obtain ⟨x1, x2, x3, x4, x5, x6⟩ := dyn_readHeader hd io hR.spec.1 hne hok.1 hok.2.1 h hh
  have hrd : ∀ c, c < 2 ^ d → ∃ q, readRecords io d F ((dir (.store c)).getD []) = (records m.st c).take q := by
    intro c hc
    obtain ⟨bs, e, hbs, hdvd⟩ := h2 c hc
    obtain ⟨q, torn, z1, _, z3⟩ := readRecords_prefix hd m hR io F hF hok c bs hbs
    rw [z3 hdvd, List.append_nil] at z1
    exact ⟨q, by rw [e]; exact z1⟩
  obtain ⟨m', y1, y2, y3, y4, y5⟩ := rebuildDynamic_sub hR.spec.1 f f' junk h x5 (fun c => if canOpen c then readRecords io d F ((dir (.store c)).getD []) else []) (by
    intro c hc
    obtain ⟨q, e⟩ := hrd c hc
    rw [if_pos (hopen c (joined_mem hj hc)), e]
    exact List.take_sublist _ _)
  refine ⟨m', ?_, y2.trans x2, y3.trans x3, y4, fun c hc k => ?_⟩
  · rw [loadDir_eq io F _ canOpen sched dir _ h1 (fun c hc => by obtain ⟨bs, e, _⟩ := h2 c hc; rw [e]; rfl) hopen hj, x1, y1]; rfl
  · cases hx : m'.st.content c k with
    | none => exact Or.inl rfl
    | some x =>
      right
      obtain ⟨q, e⟩ := hrd c hc
      have := (y5 c hc k x).1 hx
      simp only [hopen c (joined_mem hj hc), if_true, e] at this
      exact ((mem_records (octreeLawful d) m.st hI.inv c k x).1 (List.mem_of_mem_take this)).symm

namespace SaveTrace

/-- all files are written completely, apart from the last block `rest` of storage `c` -/
def cutLast (d : Nat) (old : Option Dir) (hb : Bytes) (sb : Nat → Bytes) (removed : List FileName)
    (hrem : ∀ dir f, old = some dir → (dir f).isSome = true → f ∈ removed) (c : Nat) (hc : c < 2 ^ d) (cut rest : Bytes) (he : cut ++ rest = sb c) : SaveTrace d old hb sb where
  removed := removed
  removed_all := hrem
  headerBlocks := [hb]
  header_eq := by simp
  storeBlocks := fun j => if j = c then [cut, rest] else [sb j]
  store_eq := fun j _ => by
    by_cases h : j = c
    · subst h; simp [he]
    · simp [h]
  threads := (List.range (2 ^ d)).flatMap (inOrderThread fun j => if j = c then [cut] else [sb j]) ++ [(c, .append (.store c) rest)]
  threads_lt := by
    intro e he
    rcases List.mem_append.1 he with he | he
    · obtain ⟨j, hj, h⟩ := List.mem_flatMap.1 he
      have : e.1 = j := by
        unfold inOrderThread at h
        rcases List.mem_cons.1 h with rfl | h
        · rfl
        · obtain ⟨b, _, rfl⟩ := List.mem_map.1 h; rfl
      rw [this]; exact List.mem_range.1 hj
    · rw [List.mem_singleton] at he; subst he; exact hc
  thread_eq := by
    intro j hj
    rw [List.filter_append, filter_inOrder, if_pos hj]
    by_cases h : j = c
    · subst h
      simp [inOrderThread]
    · have h' : ¬ c = j := fun e => h e.symm
      simp [inOrderThread, h, h']

end SaveTrace

/-- **C37 refuted** (torn records). For every non-empty reachable dynamic map, every storage and every number of bytes that is too small for a distribution, there is an execution of `save` and a crash point after which `load` succeeds and returns
a map in which one distribution of the storage holds whatever the reader makes of its first bytes. -/
theorem C37_torn_refuted (hd : 0 < d) (m : MapObj (octreeBackend d) K P D) (hR : MapReachable (.dynamic g g') exp m.st) (hne : m.st.bundleIndices ≠ [])
    (io : Io K P) (F : Fmt D) (hF : F.reported = F.codec.size) (hok : Storable io F m) (h : Header K P d) (hh : dynHeader m = some h) (c : Nat) (hc : c < 2 ^ d) (n : Nat) (hn : n < F.codec.size)
    (old : Option Dir) (removed : List FileName) (hrem : ∀ dir f, old = some dir → (dir f).isSome = true → f ∈ removed)
    (canOpen : Nat → Bool) (sched : List Nat) (hopen : ∀ c ∈ sched, canOpen c = true) (hj : (Threads.run canOpen sched).Joined (2 ^ d))
    (f : Nat → Nat) (f' : Nat) (junk : Nat → D) :
    ∃ (t : SaveTrace d old (headerBytes io h) (storeFiles io F m)) (p : List Eff) (m' : MapObj (octreeBackend d) K P D) (k : Idx d) (x : D), p <+: t.effects ∧
      loadDir io d F (rebuildDynamic f f' junk) canOpen sched (runEffs old p) = .loaded m' ∧
      m.st.content c k = some x ∧ m'.st.content c k = some (F.codec.dec ((F.codec.enc x).take n)) := by
  have hI : RInv (octreeLawful d) true m.st := hR.spec.1
  have hrne : records m.st c ≠ [] := by
    obtain ⟨bi, hbi⟩ := List.exists_mem_of_ne_nil _ hne
    have hal : bi ∈ m.st.abs.allocated := (mem_allocated_iff m.st bi).2 ((mem_bundleIndices (octreeLawful d) m.st hI.inv bi).1 hbi)
    have h2 := (hI.ainv.used c (generateIndex bi c)).2 ⟨hc, bi, hal, rfl⟩
    obtain ⟨x, hx⟩ := Option.isSome_iff_exists.1 h2
    intro e
    have := (mem_records (octreeLawful d) m.st hI.inv c (generateIndex bi c) x).2 hx
    rw [e] at this; cases this
  obtain ⟨init, ⟨k, x⟩, hsplit⟩ : ∃ init e, records m.st c = init ++ [e] := ⟨_, _, (List.dropLast_append_getLast hrne).symm⟩
  have hrok := records_ok io F m hR.spec.1 rfl hok.2.2 c
  have hx : m.st.content c k = some x := (mem_records (octreeLawful d) m.st hI.inv c k x).1 (by rw [hsplit]; simp)
  have hki : (io.int.array d).Ok k := (hrok (k, x) (by rw [hsplit]; simp)).1
  let cut : Bytes := init.flatMap (recCodec io d F).enc ++ ((io.int.array d).enc k ++ (F.codec.enc x).take n)
  have he : cut ++ (F.codec.enc x).drop n = storeFiles io F m c := by
    rw [storeFiles_eq, hsplit, List.flatMap_append, List.flatMap_singleton]
    show (init.flatMap (recCodec io d F).enc ++ ((io.int.array d).enc k ++ (F.codec.enc x).take n)) ++ (F.codec.enc x).drop n = _
    rw [List.append_assoc, List.append_assoc, List.take_append_drop]; rfl
  have hil : ((io.int.array d).enc k).length = (io.int.array d).size := (io.int.array d).len k
  have htl : ((io.int.array d).enc k ++ (F.codec.enc x).take n).length < (recCodec io d F).size := by
    rw [List.length_append, hil, List.length_take, F.codec.len]
    show _ < (io.int.array d).size + F.codec.size
    omega
  have hrd : readRecords io d F cut = init ++ [(k, F.codec.dec ((F.codec.enc x).take n))] := by
    rw [readRecords_tail io F hF init (fun e he => hrok e (by rw [hsplit]; exact List.mem_append_left _ he)) _ htl, if_neg]
    · congr 2
      show ((io.int.array d).dec (((io.int.array d).enc k ++ (F.codec.enc x).take n).take (io.int.array d).size), F.codec.dec (((io.int.array d).enc k ++ (F.codec.enc x).take n).drop (io.int.array d).size)) = _
      rw [← hil, List.take_left, List.drop_left, (io.int.array d).dec_enc k hki]
    · intro e0
      have := congrArg List.length e0
      rw [List.length_append, hil, List.length_nil] at this
      have := idxCodec_pos io hd
      omega
  let t := SaveTrace.cutLast d old (headerBytes io h) (storeFiles io F m) removed hrem c hc cut _ he
  let q : List (Nat × Eff) := (List.range (2 ^ d)).flatMap (SaveTrace.inOrderThread fun j => if j = c then [cut] else [storeFiles io F m j])
  have hq : q <+: t.threads := List.prefix_append _ _
  obtain ⟨x1, x2, x3, x4, x5, x6⟩ := dyn_readHeader hd io hR.spec.1 hne hok.1 hok.2.1 h hh
  obtain ⟨dir, h1, h2, h3⟩ := t.run_threads q fun e he => hq.subset he
  have hrun : runEffs old (t.removal ++ t.headerPart ++ q.map Prod.snd) = some dir := by
    rw [runEffs_append, runEffs_append, t.run_removal, t.run_header, h1]
  have hst : ∀ j, j < 2 ^ d → dir (.store j) = some (if j = c then cut else storeFiles io F m j) := by
    intro j hj
    rw [h3 j, SaveTrace.filter_inOrder, if_pos hj]
    by_cases e : j = c
    · simp [SaveTrace.inOrderThread, fileEff, e]
    · simp [SaveTrace.inOrderThread, fileEff, e]
  have hrecs : ∀ j, j < 2 ^ d → (if canOpen j then readRecords io d F ((dir (.store j)).getD []) else []) =
      if j = c then init ++ [(k, F.codec.dec ((F.codec.enc x).take n))] else records m.st j := by
    intro j hj'
    rw [if_pos (hopen j (joined_mem hj hj')), hst j hj', Option.getD_some]
    by_cases e : j = c
    · rw [if_pos e, if_pos e, hrd]
    · rw [if_neg e, if_neg e, storeFiles_eq, readRecords_exact io hd F hF _ (records_ok io F m hR.spec.1 rfl hok.2.2 j)]
  obtain ⟨m', y⟩ := rebuildDynamic_keys hR f f' junk h x5 (fun c => if canOpen c then readRecords io d F ((dir (.store c)).getD []) else []) (by
    intro j hj'
    simp only [hrecs j hj']
    by_cases e : j = c
    · subst e
      rw [if_pos rfl, hsplit, List.map_append, List.map_append]
      exact List.Sublist.refl _
    · rw [if_neg e])
  obtain ⟨_, _, _, y4⟩ := rebuildDynamic_any hR f f' junk h x5 _ m' y
  refine ⟨t, t.removal ++ t.headerPart ++ q.map Prod.snd, m', k, x, ?_, ?_, hx, ?_⟩
  · unfold SaveTrace.effects
    exact (List.prefix_append_right_inj _).2 (hq.map _)
  · rw [hrun, loadDir_eq io F _ canOpen sched dir _ h2 (fun c hc => by rw [hst c hc]; rfl) hopen hj, x1, y]; rfl
  · rw [y4 c hc]
    simp only [hrecs c hc, if_true]
    simp

/-- Non-vacuity of the theorems above: the sample map, whose distribution is read as 0 after the crash. -/
example : ∃ (st : St (octreeBackend 2) Nat) (h : Header Nat Nat 2) (t : SaveTrace 2 none (headerBytes pcIo h) (storeFiles pcIo (distFmt (natCodec 8)) (⟨3, 7, st⟩ : MapObj (octreeBackend 2) Nat Nat Nat)))
      (p : List Eff) (m' : MapObj (octreeBackend 2) Nat Nat Nat) (k : Idx 2) (x : Nat), p <+: t.effects ∧
      loadDir pcIo 2 (distFmt (natCodec 8)) (rebuildDynamic (fun _ => 0) 0 (fun _ => 0)) (fun _ => true) (Threads.sequential (List.range 4)) (runEffs none p) = .loaded m' ∧
      st.content 3 k = some x ∧ x ≠ 0 ∧ m'.st.content 3 k = some 0 := by
  obtain ⟨st, h1, h2, h3, h4⟩ := sample_saved_pos (fun _ => 5) 9
  obtain ⟨h, hh⟩ := Option.isSome_iff_exists.1 (C31_header_defined (K := Nat) (P := Nat) ⟨3, 7, st⟩ h1 h2)
  have hst : Storable pcIo (distFmt (natCodec 8)) (⟨3, 7, st⟩ : MapObj (octreeBackend 2) Nat Nat Nat) :=
    ⟨by show (3 : Nat) < 256 ^ 24; norm_num, by show (7 : Nat) < 256 ^ 8; norm_num, fun c k x hx => (h4 c k x hx).2⟩
  obtain ⟨t, p, m', k, x, a1, a2, a3, a4⟩ := C37_torn_refuted (by decide) (⟨3, 7, st⟩ : MapObj (octreeBackend 2) Nat Nat Nat) h1 h2 pcIo (distFmt (natCodec 8)) rfl hst h hh 3 (by decide) 0 (by decide)
    none [] (fun _ _ e => by cases e) (fun _ => true) (Threads.sequential (List.range 4)) (fun _ _ => rfl) (Threads.ordered_joined _ 4) (fun _ => 0) 0 (fun _ => 0)
  exact ⟨st, h, t, p, m', k, x, a1, a2, a3, (h4 3 k x a3).1.ne', a4⟩

end
end Ndt
