import Verif.Model.Loader
import Verif.Props.Serial

/-! Property theorem C79: the map loader nodes. -/

namespace Ndt
open St

section
variable {M G N : Type}

/-! ### C79, what a node publishes -/

/-- All configured maps can be loaded with scalar type `T`. -/
def Spec.Loadable (E : LoaderEnv M G N) (T : Scalar) : Prop := ∀ w, E.configured w = true → ∃ m, E.load T w = .loaded m

/-- The messages are those of the configured maps, read with scalar type `T`, and there are no others. -/
def Spec.Serves (E : LoaderEnv M G N) (T : Scalar) (s : LoaderState G N) : Prop :=
  ∀ w, (E.configured w = false → s.primary w = none ∧ s.markers w = none) ∧
    (E.configured w = true → ∃ m, E.load T w = .loaded m ∧ s.primary w = E.primary T w m ∧ (s.primary w).isSome = true ∧ s.markers w = some (E.markers T w m))

theorem setupOne_cases {E : LoaderEnv M G N} {T : Scalar} {w : Which} {s s' : LoaderState G N} {b : Bool} (h : setupOne E T w s = some (s', b)) :
    (∀ v, v ≠ w → s'.primary v = s.primary v ∧ s'.markers v = s.markers v) ∧
    (E.configured w = false → b = true ∧ s' = s) ∧
    (E.configured w = true → (b = false ∧ E.load T w = .fails ∧ s' = s) ∨
      (b = true ∧ ∃ m, E.load T w = .loaded m ∧ s'.primary w = E.primary T w m ∧ (s'.primary w).isSome = true ∧ s'.markers w = some (E.markers T w m))) := by
  unfold setupOne at h
  by_cases hc : E.configured w = true
  · rw [if_pos hc] at h
    cases hl : E.load T w with
    | fails =>
      rw [hl] at h
      simp only [Option.some.injEq, Prod.mk.injEq] at h
      obtain ⟨rfl, rfl⟩ := h
      exact ⟨fun _ _ => ⟨rfl, rfl⟩, fun h => (by rw [hc] at h; cases h), fun _ => Or.inl ⟨rfl, rfl, rfl⟩⟩
    | undefined => rw [hl] at h; cases h
    | loaded m =>
      rw [hl] at h
      simp only at h
      cases hp : E.primary T w m with
      | none => rw [hp] at h; cases h
      | some x =>
        rw [hp] at h
        simp only [Option.some.injEq, Prod.mk.injEq] at h
        obtain ⟨rfl, rfl⟩ := h
        refine ⟨fun v hv => ⟨Function.update_of_ne hv _ _, Function.update_of_ne hv _ _⟩, fun h => (by rw [hc] at h; cases h), fun _ => Or.inr ⟨rfl, m, rfl, ?_, ?_, ?_⟩⟩
        · show Function.update s.primary w (some x) w = _; rw [Function.update_self, hp]
        · show (Function.update s.primary w (some x) w).isSome = _; rw [Function.update_self]; rfl
        · show Function.update s.markers w _ w = _; rw [Function.update_self]
  · rw [if_neg hc] at h
    simp only [Option.some.injEq, Prod.mk.injEq] at h
    obtain ⟨rfl, rfl⟩ := h
    exact ⟨fun _ _ => ⟨rfl, rfl⟩, fun _ => ⟨rfl, rfl⟩, fun h => absurd h hc⟩

theorem setup_true {E : LoaderEnv M G N} {T : Scalar} {s s' : LoaderState G N} (hs : ∀ w, E.configured w = false → s.primary w = none ∧ s.markers w = none)
    (h : setup E T s = some (s', true)) : Spec.Serves E T s' := by
  unfold setup at h
  cases h1 : setupOne E T .ndt s with
  | none => rw [h1] at h; cases h
  | some x =>
    obtain ⟨s1, b⟩ := x
    rw [h1] at h
    cases b with
    | false => simp at h
    | true =>
      simp only at h
      obtain ⟨a1, a2, a3⟩ := setupOne_cases h1
      obtain ⟨b1, b2, b3⟩ := setupOne_cases h
      intro w
      cases w with
      | ndt =>
        have e := b1 .ndt (by decide)
        refine ⟨fun hc => ?_, fun hc => ?_⟩
        · rw [e.1, e.2, (a2 hc).2]; exact hs _ hc
        · rcases a3 hc with ⟨h, _⟩ | ⟨_, h⟩
          · cases h
          · rw [e.1, e.2]; exact h
      | occ =>
        refine ⟨fun hc => ?_, fun hc => ?_⟩
        · rw [(b2 hc).2, (a1 .occ (by decide)).1, (a1 .occ (by decide)).2]; exact hs _ hc
        · rcases b3 hc with ⟨h, _⟩ | ⟨_, h⟩
          · cases h
          · exact h

theorem setup_false {E : LoaderEnv M G N} {T : Scalar} {s s' : LoaderState G N} (hs : ∀ w, E.configured w = false → s.primary w = none ∧ s.markers w = none)
    (h : setup E T s = some (s', false)) : (∃ w, E.configured w = true ∧ E.load T w = .fails) ∧ ∀ w, E.configured w = false → s'.primary w = none ∧ s'.markers w = none := by
  have keep : ∀ {w : Which} {s s' : LoaderState G N} {b : Bool}, setupOne E T w s = some (s', b) → (∀ w, E.configured w = false → s.primary w = none ∧ s.markers w = none) →
      ∀ w, E.configured w = false → s'.primary w = none ∧ s'.markers w = none := by
    intro w s s' b h hs v hv
    obtain ⟨a1, a2, -⟩ := setupOne_cases h
    by_cases e : v = w
    · subst e; rw [(a2 hv).2]; exact hs v hv
    · rw [(a1 v e).1, (a1 v e).2]; exact hs v hv
  have fail : ∀ {w : Which} {s s' : LoaderState G N}, setupOne E T w s = some (s', false) → E.configured w = true ∧ E.load T w = .fails := by
    intro w s s' h
    obtain ⟨-, a2, a3⟩ := setupOne_cases h
    cases hc : E.configured w with
    | false => have := (a2 hc).1; cases this
    | true =>
      rcases a3 hc with ⟨_, h, _⟩ | ⟨h, _⟩
      · exact ⟨rfl, h⟩
      · cases h
  unfold setup at h
  cases h1 : setupOne E T .ndt s with
  | none => rw [h1] at h; cases h
  | some x =>
    obtain ⟨s1, b⟩ := x
    rw [h1] at h
    cases b with
    | false =>
      simp only [Option.some.injEq, Prod.mk.injEq, and_true] at h
      subst h
      exact ⟨⟨_, fail h1⟩, keep h1 hs⟩
    | true =>
      simp only at h
      exact ⟨⟨_, fail h⟩, keep h (keep h1 hs)⟩

/-- **C79.** Whenever `run` does not run into undefined behaviour: the node stays up exactly if all configured maps can be loaded with `double`, or all with `float`; it then serves the messages of exactly the configured maps, read with the
first of the two types that works. Otherwise it shuts down and says so. -/
theorem C79_run (E : LoaderEnv M G N) (r : RunResult G N) (h : runLoader E = some r) :
    (r.shutdown = false ∧ r.printedFailure = false ∧ (Spec.Serves E .double r.state ∨ (¬ Spec.Loadable E .double ∧ Spec.Serves E .float r.state))) ∨
    (r.shutdown = true ∧ r.printedFailure = true ∧ ¬ Spec.Loadable E .double ∧ ¬ Spec.Loadable E .float) := by
  have hinit : ∀ w, E.configured w = false → (LoaderState.init : LoaderState G N).primary w = none ∧ (LoaderState.init : LoaderState G N).markers w = none := fun _ _ => ⟨rfl, rfl⟩
  have nl : ∀ {T : Scalar}, (∃ w, E.configured w = true ∧ E.load T w = .fails) → ¬ Spec.Loadable E T := by
    rintro T ⟨w, hw, hf⟩ hl
    obtain ⟨m, hm⟩ := hl w hw
    rw [hf] at hm; cases hm
  unfold runLoader at h
  cases h1 : setup E .double .init with
  | none => rw [h1] at h; cases h
  | some x =>
    obtain ⟨s1, b⟩ := x
    rw [h1] at h
    cases b with
    | true =>
      simp only [Option.some.injEq] at h
      subst h
      exact Or.inl ⟨rfl, rfl, Or.inl (setup_true hinit h1)⟩
    | false =>
      simp only at h
      obtain ⟨d1, d2⟩ := setup_false hinit h1
      cases h2 : setup E .float s1 with
      | none => rw [h2] at h; cases h
      | some y =>
        obtain ⟨s2, b2⟩ := y
        rw [h2] at h
        cases b2 with
        | true =>
          simp only [Option.some.injEq] at h
          subst h
          exact Or.inl ⟨rfl, rfl, Or.inr ⟨nl d1, setup_true d2 h2⟩⟩
        | false =>
          simp only [Option.some.injEq] at h
          subst h
          exact Or.inr ⟨rfl, rfl, nl d1, nl (setup_false d2 h2).1⟩

/-- **C79.** `run` comes to an end if loading the maps and computing their messages does. -/
theorem C79_defined (E : LoaderEnv M G N) (hl : ∀ T w, E.configured w = true → E.load T w ≠ .undefined) (hp : ∀ T w m, E.configured w = true → E.load T w = .loaded m → (E.primary T w m).isSome = true) :
    ∃ r, runLoader E = some r := by
  have one : ∀ T w s, ∃ x, setupOne E T w s = some x := by
    intro T w s
    unfold setupOne
    by_cases hc : E.configured w = true
    · rw [if_pos hc]
      cases h : E.load T w with
      | fails => exact ⟨_, rfl⟩
      | undefined => exact absurd h (hl T w hc)
      | loaded m =>
        obtain ⟨x, hx⟩ := Option.isSome_iff_exists.1 (hp T w m hc h)
        simp only [hx]
        exact ⟨_, rfl⟩
    · rw [if_neg hc]; exact ⟨_, rfl⟩
  have two : ∀ T s, ∃ x, setup E T s = some x := by
    intro T s
    obtain ⟨⟨s1, b⟩, h⟩ := one T .ndt s
    unfold setup
    rw [h]
    cases b
    · exact ⟨_, rfl⟩
    · exact one T .occ s1
  obtain ⟨⟨s1, b⟩, h⟩ := two .double .init
  unfold runLoader
  rw [h]
  cases b
  · obtain ⟨⟨s2, b2⟩, h2⟩ := two .float s1
    simp only [h2]
    cases b2 <;> exact ⟨_, rfl⟩
  · exact ⟨_, rfl⟩

/-- **C79.** A node that is up answers `resend` with true exactly if a map is configured, and then publishes the two messages of every configured map once, with the current time, and nothing else; in 2D and in 3D. -/
theorem C79_resend (E : LoaderEnv M G N) (T : Scalar) (s : LoaderState G N) (h : Spec.Serves E T s) (t : Nat) :
    resend2 t s = resend3 t s ∧ ((resend2 t s).1 = true ↔ ∃ w, E.configured w = true) ∧
    (∀ w x u, .primary w x u ∈ (resend2 t s).2 ↔ u = t ∧ s.primary w = some x) ∧ (∀ w x u, .markers w x u ∈ (resend2 t s).2 ↔ u = t ∧ s.markers w = some x) ∧
    (resend2 t s).2.length = 2 * ((List.filter E.configured [.ndt, .occ]).length) := by
  have cases : ∀ w, (E.configured w = false ∧ s.primary w = none ∧ s.markers w = none) ∨ (E.configured w = true ∧ ∃ x y, s.primary w = some x ∧ s.markers w = some y) := by
    intro w
    cases hc : E.configured w with
    | false => exact Or.inl ⟨rfl, (h w).1 hc⟩
    | true =>
      obtain ⟨m, _, _, hi, hm⟩ := (h w).2 hc
      obtain ⟨x, hx⟩ := Option.isSome_iff_exists.1 hi
      exact Or.inr ⟨rfl, x, _, hx, hm⟩
  have ex : (∃ w, E.configured w = true) ↔ E.configured .ndt = true ∨ E.configured .occ = true :=
    ⟨fun ⟨w, hw⟩ => by cases w <;> simp [hw], fun h => h.elim (fun h => ⟨_, h⟩) (fun h => ⟨_, h⟩)⟩
  have fin : ∀ {P : Which → Prop}, P .ndt → P .occ → ∀ w, P w := fun a b w => by cases w <;> assumption
  rw [ex]
  rcases cases .ndt with ⟨c1, p1, m1⟩ | ⟨c1, x1, y1, p1, m1⟩ <;> rcases cases .occ with ⟨c2, p2, m2⟩ | ⟨c2, x2, y2, p2, m2⟩ <;>
    refine ⟨by simp [resend2, resend3, p1, p2, m1, m2], by simp [resend2, p1, p2, c1, c2], fin ?_ ?_, fin ?_ ?_, ?_⟩ <;>
    simp [resend2, publications, p1, p2, m1, m2, c1, c2] <;> (try (intro x u; constructor <;> (rintro ⟨rfl, rfl⟩; exact ⟨rfl, rfl⟩)))

/-- **C79 refuted** (message). A node that has been shut down because no map could be loaded has printed that the setup was successful. -/
theorem C79_message_refuted : ∃ (E : LoaderEnv Unit Unit Unit) (r : RunResult Unit Unit), runLoader E = some r ∧ r.shutdown = true ∧ r.printedFailure = true ∧ r.printedSuccess = true :=
  ⟨⟨fun w => decide (w = .ndt), fun _ _ => .fails, fun _ _ _ => some (), fun _ _ _ => ()⟩, ⟨.init, true, true, true⟩, rfl, rfl, rfl, rfl⟩

end

/-! ### C79, the scalar type of the files -/

section
variable {d : Nat} {K P K' P' D D' : Type} [Inhabited D] [Inhabited D'] {g : Nat → Nat} {g' : Nat} {exp : D → Bool} {G N : Type}

/-- **C79 refuted** (scalar type). Take a map saved with any formats (`io`, `F`: think of a map of floats), and let the node be configured with its directory; `io'`, `F'` are the formats with which `setup<double>` reads it. Then, for all contents of the map, the
node never turns to `setup<float>`: it runs into undefined behaviour or serves what it has read as doubles. -/
theorem C79_float_refuted (m : MapObj (octreeBackend d) K P D) (io : Io K P) (F : Fmt D) (h : Header K P d) (old : Option Dir) (t : SaveTrace d old (headerBytes io h) (storeFiles io F m))
    (io' : Io K' P') (F' : Fmt D') (canOpen : Nat → Bool) (sched : List Nat) (hopen : ∀ c ∈ sched, canOpen c = true) (hj : (Threads.run canOpen sched).Joined (2 ^ d))
    (f : Nat → Nat) (f' : Nat) (junk : Nat → D') (E : LoaderEnv (MapObj (octreeBackend d) K' P' D') G N) (hc : E.configured .ndt = true) (hc' : E.configured .occ = false)
    (hE : E.load .double .ndt = loadDir io' d F' (rebuildDynamic f f' junk) canOpen sched (runEffs old t.effects)) :
    runLoader E = none ∨ ∃ r, runLoader E = some r ∧ r.shutdown = false ∧ Spec.Serves E .double r.state := by
  obtain ⟨dir, h1, h2, h3⟩ := t.run_all
  have hnf : E.load .double .ndt ≠ .fails := by
    rw [hE, h1]
    exact C34_never_rejected_refuted io' F' _ canOpen sched dir (by rw [h2]; rfl) (fun c hc => by rw [h3 c hc]; rfl) hopen hj
  cases hr : runLoader E with
  | none => exact Or.inl rfl
  | some r =>
    right
    refine ⟨r, rfl, ?_⟩
    have hd : Spec.Loadable E .double := by
      unfold runLoader at hr
      cases h1 : setup E .double .init with
      | none => rw [h1] at hr; cases hr
      | some x =>
        obtain ⟨s1, bb⟩ := x
        cases bb with
        | true =>
          intro w hw
          obtain ⟨m, hm, _⟩ := (setup_true (E := E) (T := .double) (s := .init) (fun _ _ => ⟨rfl, rfl⟩) h1 w).2 hw
          exact ⟨m, hm⟩
        | false =>
          obtain ⟨⟨w, hw, hf⟩, _⟩ := setup_false (E := E) (T := .double) (s := .init) (fun _ _ => ⟨rfl, rfl⟩) h1
          cases w with
          | ndt => exact absurd hf hnf
          | occ => rw [hc'] at hw; cases hw
    rcases C79_run E r hr with ⟨a, _, b | ⟨b, _⟩⟩ | ⟨_, _, b, _⟩
    · exact ⟨a, b⟩
    · exact absurd hd b
    · exact absurd hd b

theorem insertBundles_sub {B : Backend d} (L : B.Lawful) (S : Nat → B.Store Nat) : ∀ (l : List (Idx d)) (bs bs' : B.Store Bundle), L.Inv bs → insertBundles S l bs = some bs' →
    L.Inv bs' ∧ ∀ bi, (B.look bs' bi).isSome = true → bi ∈ l ∨ (B.look bs bi).isSome = true
  | [], bs, bs', hI, h => by cases h; exact ⟨hI, fun _ h => Or.inr h⟩
  | bi :: l, bs, bs', hI, h => by
    unfold insertBundles at h
    cases hb : bundleFrom S (applyIndices bi 0 (twoPow d)) Bundle.new with
    | none => rw [hb] at h; cases h
    | some b =>
      rw [hb] at h
      simp only at h
      by_cases hc : (B.ok bs bi && (B.get bs bi).isNone) = true
      · rw [if_pos hc] at h
        rw [Bool.and_eq_true] at hc
        obtain ⟨a1, a2⟩ := insertBundles_sub L S l _ bs' (L.inv_insert bs bi b hI hc.1) h
        refine ⟨a1, fun bj hbj => ?_⟩
        rcases a2 bj hbj with h1 | h1
        · exact Or.inl (List.mem_cons_of_mem _ h1)
        · have hn : B.look bs bi = none := by
            unfold Backend.look
            rw [if_pos hc.1]
            exact Option.isNone_iff_eq_none.1 hc.2
          rw [L.look_insert bs bi bj b hI hc.1 hn] at h1
          by_cases e : bj = bi
          · subst e; exact Or.inl List.mem_cons_self
          · rw [if_neg e] at h1; exact Or.inr h1
      · rw [if_neg hc] at h; cases h

theorem readLoop_length {α : Type} (actual rep : Nat) (hrep : 0 < rep) (dec : Bytes → α) : ∀ (f rem : Nat) (bs : Bytes), (readLoop actual rep dec f rem bs).length * rep < rem + rep
  | 0, rem, bs => by simp [readLoop]; omega
  | f + 1, rem, bs => by
    unfold readLoop
    by_cases h : rem = 0
    · rw [if_pos h]; simp; omega
    · rw [if_neg h, List.length_cons]
      have := readLoop_length actual rep hrep dec f (rem - rep) (bs.drop actual)
      have e : ((readLoop actual rep dec f (rem - rep) (bs.drop actual)).length + 1) * rep = (readLoop actual rep dec f (rem - rep) (bs.drop actual)).length * rep + rep := by ring
      rw [e]
      by_cases hle : rep ≤ rem
      · omega
      · have e0 : rem - rep = 0 := by omega
        rw [e0] at this ⊢
        have : (readLoop actual rep dec f 0 (bs.drop actual)).length = 0 := by
          by_contra hne
          have h1 : 1 ≤ (readLoop actual rep dec f 0 (bs.drop actual)).length := by omega
          have := Nat.mul_le_mul_right rep h1
          omega
        rw [this]; omega

/-- **C79 refuted** (contents). Reading a saved map of floats as doubles never yields that map: the numbers in the header take more bytes (`hsize`: at least as many as one bundle index), so the reader takes bundle indices for numbers, and the map it builds has fewer bundles. -/
theorem C79_float_bundles_refuted (hd : 0 < d) (m : MapObj (octreeBackend d) K P D) (hR : MapReachable (.dynamic g g') exp m.st) (hne : m.st.bundleIndices ≠ []) (io : Io K P) (F : Fmt D) (h : Header K P d)
    (hh : dynHeader m = some h) (old : Option Dir) (t : SaveTrace d old (headerBytes io h) (storeFiles io F m)) (io' : Io K' P') (F' : Fmt D') (canOpen : Nat → Bool) (sched : List Nat)
    (hopen : ∀ c ∈ sched, canOpen c = true) (hj : (Threads.run canOpen sched).Joined (2 ^ d)) (f : Nat → Nat) (f' : Nat) (junk : Nat → D')
    (hint : io'.int.size = io.int.size) (hsize : (headCodec io d).size + d * io.int.size ≤ (headCodec io' d).size)
    (m' : MapObj (octreeBackend d) K' P' D') (hm : loadDir io' d F' (rebuildDynamic f f' junk) canOpen sched (runEffs old t.effects) = .loaded m') :
    m'.st.bundleIndices.length < m.st.bundleIndices.length := by
  obtain ⟨dir, h1, h2, h3⟩ := t.run_all
  rw [h1, loadDir_eq io' F' _ canOpen sched dir _ h2 (fun c hc => by rw [h3 c hc]; rfl) hopen hj] at hm
  have hi : h.indices = m.st.bundleIndices := by
    rw [dynHeader_eq hR.spec.1 hne] at hh
    cases hh; rfl
  generalize hrecs : (fun c => if canOpen c then readRecords io' d F' ((dir (.store c)).getD []) else []) = recs at hm
  cases hreb : rebuildDynamic f f' junk (readHeader io' d (headerBytes io h)) recs with
  | none => rw [hreb] at hm; cases hm
  | some m'' =>
    rw [hreb] at hm
    have : m'' = m' := by cases hm; rfl
    subst this
    unfold rebuildDynamic rebuild at hreb
    rw [Option.map_eq_some_iff] at hreb
    obtain ⟨st', hst', rfl⟩ := hreb
    cases hs : insertStorages (B := octreeBackend d) (fun c => Octree.Tree.empty (f c)) recs 0 (twoPow d) (junk, 0, fun c => Octree.Tree.empty (f c)) with
    | none => rw [hs] at hst'; cases hst'
    | some x =>
      obtain ⟨hp, n, S⟩ := x
      rw [hs] at hst'
      simp only at hst'
      cases hb : insertBundles (B := octreeBackend d) S (readHeader io' d (headerBytes io h)).indices (Octree.Tree.empty f') with
      | none => rw [hb] at hst'; cases hst'
      | some bs =>
        rw [hb] at hst'
        simp only [Option.some.injEq] at hst'
        have hinv : (octreeLawful d).Inv (Octree.Tree.empty f' : Octree.Tree d Bundle) := (Kind.dynamic (d := d) f f').init_rinv (D := Nat) |>.inv.bstore
        obtain ⟨a1, a2⟩ := insertBundles_sub (octreeLawful d) S _ _ _ hinv hb
        have hempty : ∀ bi, (octreeBackend d).look (Octree.Tree.empty f' : Octree.Tree d Bundle) bi = none := by
          intro bi
          cases hl : (octreeBackend d).look (Octree.Tree.empty f' : Octree.Tree d Bundle) bi with
          | none => rfl
          | some b =>
            have := ((octreeLawful d).mem_traverse _ hinv bi b).2 hl
            have e : (octreeBackend d).traverse (Octree.Tree.empty f' : Octree.Tree d Bundle) = [] := rfl
            rw [e] at this; cases this
        have hbi : st'.bundleIndices = ((octreeBackend d).traverse bs).map Prod.fst := by rw [← hst']; rfl
        have hnd : st'.bundleIndices.Nodup := by rw [hbi]; exact (octreeLawful d).nodup_traverse _ a1
        have hsub : st'.bundleIndices ⊆ (readHeader io' d (headerBytes io h)).indices := by
          intro bi hbm
          rw [hbi] at hbm
          obtain ⟨⟨bi', b⟩, he, e⟩ := List.mem_map.1 hbm
          simp only at e
          subst e
          have hl := ((octreeLawful d).mem_traverse _ a1 bi' b).1 he
          rcases a2 bi' (by rw [hl]; rfl) with h | h
          · exact h
          · rw [hempty] at h; cases h
        have hlen := (List.subperm_of_subset hnd hsub).length_le
        have hisz : (io'.int.array d).size = d * io.int.size := by rw [Codec.array_size, hint]
        have hpos : 0 < d * io.int.size := Nat.mul_pos hd io.int_pos
        have hl2 : (readHeader io' d (headerBytes io h)).indices.length * (d * io.int.size) < (headerBytes io h).length - (headCodec io' d).size + d * io.int.size := by
          have := readLoop_length (io'.int.array d).size (io'.int.array d).size (by rw [hisz]; exact hpos) (io'.int.array d).dec (headerBytes io h).length
            ((headerBytes io h).length - (headCodec io' d).size) ((headerBytes io h).drop (headCodec io' d).size)
          rw [hisz] at this
          show (readLoop (io'.int.array d).size (io'.int.array d).size (io'.int.array d).dec _ _ _).length * _ < _
          rw [hisz]
          exact this
        have hl3 : (headerBytes io h).length = (headCodec io d).size + m.st.bundleIndices.length * (d * io.int.size) := by
          unfold headerBytes
          rw [List.length_append, (headCodec io d).len, Codec.length_flatMap, Codec.array_size, hi]
        have hk : 0 < m.st.bundleIndices.length := List.length_pos_iff.2 hne
        show st'.bundleIndices.length < _
        refine lt_of_le_of_lt hlen ?_
        by_contra hge
        push Not at hge
        have hmul := Nat.mul_le_mul_right (d * io.int.size) hge
        have h1m := Nat.mul_le_mul_right (d * io.int.size) hk
        rw [hl3] at hl2
        omega

end

/-! ### The hypotheses are met -/

/-- a node with one configured map, which loads as `float` only -/
example : ∃ r, runLoader (⟨fun w => decide (w = .ndt), fun T _ => if T = .float then .loaded 7 else .fails, fun _ _ m => some (m + 1), fun _ _ m => m + 2⟩ : LoaderEnv Nat Nat Nat) = some r ∧
    r.shutdown = false ∧ resend2 5 r.state = (true, [.primary .ndt 8 5, .markers .ndt 9 5]) := ⟨_, rfl, rfl, rfl⟩

/-- formats as on a PC: `pcIo` has numbers of 8 bytes and a pose of 24 bytes; the same with numbers of 4 bytes and a pose of 12 -/
def pcFloatIo : Io Nat Nat := { pcIo with real := natCodec 4, pose := natCodec 12 }

example : pcIo.int.size = pcFloatIo.int.size ∧ (headCodec pcFloatIo 2).size + 2 * pcFloatIo.int.size ≤ (headCodec pcIo 2).size := by decide

/-- the sample map of C31, saved with short numbers: it can be saved, and the directory can be read with long numbers by a complete schedule -/
example : ∃ (st : St (octreeBackend 2) Nat) (h : Header Nat Nat 2) (_ : SaveTrace 2 none (headerBytes pcFloatIo h) (storeFiles pcFloatIo (distFmt (natCodec 4)) ⟨3, 7, st⟩)),
    MapReachable (.dynamic (fun _ => 5) 9) (fun _ => false) st ∧ st.bundleIndices ≠ [] ∧ dynHeader (⟨3, 7, st⟩ : MapObj (octreeBackend 2) Nat Nat Nat) = some h ∧
    (Threads.run (fun _ => true) (Threads.sequential (List.range 4))).Joined (2 ^ 2) := by
  obtain ⟨st, h1, h2, h3, h4⟩ := sample_saved (fun _ => 5) 9
  obtain ⟨h, hh⟩ := Option.isSome_iff_exists.1 (C31_header_defined (K := Nat) (P := Nat) ⟨3, 7, st⟩ h1 h2)
  exact ⟨st, h, SaveTrace.inOrder 2 none _ _ [] (fun _ _ e => by cases e), h1, h2, hh, Threads.ordered_joined _ 4⟩

end Ndt
