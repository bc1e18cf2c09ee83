import Verif.Spec.Local
import Verif.Props.ScanOrder
import Verif.Props.Frame

/-! Property theorems C99: insertions act locally. -/

namespace Ndt
open St Abs

section
variable {K : Type} [Field K] [LinearOrder K] [IsStrictOrderedRing K] [FloorRing K] {d : Nat}

/-- **C99** (geometry). Two points share a cell if and only if their bundles are neighbours (or equal). -/
theorem C99_share_iff_neighbours {r : K} (hr : 0 < r) (p q : Pt K d) (b b' : Idx d) (hb : Spec.InBundle r b p) (hb' : Spec.InBundle r b' q) :
    Spec.ShareCell r p q ↔ Spec.Neighbour b b' := by
  have e := (C01_bundle_contains_point hr p b).2 hb
  have e' := (C01_bundle_contains_point hr q b').2 hb'
  constructor
  · rintro ⟨c, _, i, h1, h2⟩
    have g1 := (C01_point_in_selected_cell hr p c i).2 h1
    have g2 := (C01_point_in_selected_cell hr q c i).2 h2
    have := neighbour_of_shared c (toBundleIndex r p) (toBundleIndex r q) (g1.trans g2.symm)
    rwa [e, e'] at this
  · intro h
    subst e e'
    have hm : ∃ m, m < 2 ^ d ∧ ∀ a : Fin d, m.testBit a.1 = decide (toBundleIndex r p a / 2 ≠ toBundleIndex r q a / 2) :=
      ⟨Nat.ofBits fun a => decide (toBundleIndex r p a / 2 ≠ toBundleIndex r q a / 2), Nat.ofBits_lt_two_pow _, fun a => Nat.testBit_ofBits_lt _ a.1 a.2⟩
    obtain ⟨m, hm1, hm2⟩ := hm
    refine ⟨m, hm1, _, (C01_point_in_selected_cell hr p m _).1 rfl, (C01_point_in_selected_cell hr q m _).1 ?_⟩
    rw [generateIndex_eq_iff]
    intro a
    have h1 := (generateIndex_eq_iff (toBundleIndex r p) _ m).1 rfl a
    have h2 := h a
    rw [abs_le] at h2
    rw [hm2 a] at h1 ⊢
    by_cases hx : toBundleIndex r p a / 2 = toBundleIndex r q a / 2
    · simp [hx] at h1 ⊢
      omega
    · simp [hx] at h1 ⊢
      omega

/-- **C99** (geometry). Points that share a cell are closer than the resolution in every coordinate; points that are at most half of the resolution apart in every coordinate share a cell. -/
theorem C99_share_near {r : K} (hr : 0 < r) (p q : Pt K d) :
    (Spec.ShareCell r p q → Spec.Near r p q) ∧ ((∀ a, |q a - p a| ≤ r / 2) → Spec.ShareCell r p q) := by
  constructor
  · rintro ⟨c, _, i, h1, h2⟩ a
    obtain ⟨a1, a2⟩ := h1 a
    obtain ⟨b1, b2⟩ := h2 a
    rw [abs_lt]
    constructor <;> nlinarith
  · intro h
    have hb := (C01_bundle_contains_point hr p _).1 rfl
    have hb' := (C01_bundle_contains_point hr q _).1 rfl
    rw [C99_share_iff_neighbours hr p q _ _ hb hb']
    intro a
    obtain ⟨a1, a2⟩ := hb a
    obtain ⟨b1, b2⟩ := hb' a
    obtain ⟨c1, c2⟩ := abs_le.1 (h a)
    have hh : 0 < r / 2 := by linarith
    rw [abs_le]
    constructor
    · have : ((toBundleIndex r p a : Int) : K) < (toBundleIndex r q a : Int) + 2 := by
        by_contra hn
        push Not at hn
        nlinarith
      have : toBundleIndex r p a < toBundleIndex r q a + 2 := by exact_mod_cast this
      omega
    · have : ((toBundleIndex r q a : Int) : K) < (toBundleIndex r p a : Int) + 2 := by
        by_contra hn
        push Not at hn
        nlinarith
      have : toBundleIndex r q a < toBundleIndex r p a + 2 := by exact_mod_cast this
      omega

omit [LinearOrder K] [IsStrictOrderedRing K] [FloorRing K] in
/-- the value of a sample is determined by the allocation of the bundle and the contents of its cells -/
theorem sampleWith_ext {D : Type} [Inhabited D] {B : Backend d} (L : B.Lawful) (dyn : Bool) (w : Nat → K) (f : D → K) (bi : Idx d) (st st' : St B D) (hI : RInv L dyn st) (hI' : RInv L dyn st')
    (hk : st'.abs.okB = st.abs.okB) (hv : st'.abs.valid dyn bi = st.abs.valid dyn bi) (ha : bi ∈ st'.abs.allocated ↔ bi ∈ st.abs.allocated)
    (hc : ∀ c, c < 2 ^ d → st'.abs.val c (generateIndex bi c) = st.abs.val c (generateIndex bi c)) : sampleWith dyn w f bi st' = sampleWith dyn w f bi st := by
  have hv' : st'.valid dyn bi = st.valid dyn bi := hv
  have hok : B.ok st'.bundles bi = B.ok st.bundles bi := congrFun hk bi
  have h1 := (sampleWith_spec L dyn w f bi st hI).1
  have h2 := (sampleWith_spec L dyn w f bi st' hI').1
  have hsome : (sampleWith dyn w f bi st').isSome = (sampleWith dyn w f bi st).isSome := by
    have : ∀ s : St B D, (sampleWith dyn w f bi s).isSome = (!(s.valid dyn bi) || B.ok s.bundles bi) := by
      intro s
      unfold sampleWith
      cases s.valid dyn bi with
      | false => rfl
      | true =>
        cases B.ok s.bundles bi with
        | false => rfl
        | true => cases B.get s.bundles bi <;> rfl
    rw [this, this, hv', hok]
  cases hx : sampleWith dyn w f bi st with
  | none =>
    rw [hx] at hsome
    cases hy : sampleWith dyn w f bi st' with
    | none => rfl
    | some y => rw [hy] at hsome; cases hsome
  | some x =>
    rw [hx] at hsome
    cases hy : sampleWith dyn w f bi st' with
    | none => rw [hy] at hsome; cases hsome
    | some y =>
      obtain ⟨x1, x2⟩ := h1 x hx
      obtain ⟨y1, y2⟩ := h2 y hy
      rw [hv', ha] at y1 y2
      by_cases h : st.valid dyn bi = true ∧ bi ∈ st.abs.allocated
      · rw [x1 h, y1 h]
        exact congrArg some (Finset.sum_congr rfl fun c hcc => by rw [hc c (Finset.mem_range.1 hcc)])
      · rw [x2 h, y2 h]

open scoped Classical in
theorem near_filter {A A' : Multiset (Pt K d)} {r : K} {p : Pt K d} (hA : A.filter (Spec.ShareCell r p) = A'.filter (Spec.ShareCell r p)) (P : Pt K d → Prop) [DecidablePred P]
    (hP : ∀ q, P q → Spec.ShareCell r p q) : A.filter P = A'.filter P := by
  have : ∀ B : Multiset (Pt K d), B.filter P = (B.filter (Spec.ShareCell r p)).filter P := by
    intro B
    rw [Multiset.filter_filter]
    exact Multiset.filter_congr fun q _ => ⟨fun h => ⟨h, hP q h⟩, fun h => h.1⟩
  rw [this A, this A', hA]

open scoped Classical in
/-- **C99** (NDT maps). Take any reachable map and two sequences of insertions. If both accept the same points among those that share a cell with `p`, then both leave the same plain and bilinear sample at `p`. In particular (take an
empty second sequence) insertions that accept no point sharing a cell with `p` do not change the samples at `p`. -/
theorem C99_insertions (k : Kind d) (g : Geo K d) (hr : 0 < g.r) (exp : Multiset (Pt K d) → Bool) (st : St k.backend (Multiset (Pt K d))) (hst : Reachable k g exp st)
    (l l' : List ((Pt K d → Pt K d) × List (Pt K d))) (s s' : St k.backend (Multiset (Pt K d))) (h : gridRun g k.dyn exp (inserts l) st = some s) (h' : gridRun g k.dyn exp (inserts l') st = some s')
    (dens : Multiset (Pt K d) → Pt K d → K) (p : Pt K d)
    (hl : (Spec.accepted g k (inserts l)).filter (Spec.ShareCell g.r (g.toMap p)) = (Spec.accepted g k (inserts l')).filter (Spec.ShareCell g.r (g.toMap p))) :
    sampleNNAt g k.dyn dens p s' = sampleNNAt g k.dyn dens p s ∧ sampleBilinearAt g k.dyn dens p s' = sampleBilinearAt g k.dyn dens p s := by
  have hI := hst.rinv
  have hk := hst.keeps
  have hv : st.abs.valid k.dyn = (k.init (Multiset (Pt K d))).abs.valid k.dyn := funext hk.valid
  obtain ⟨f1, _⟩ := inserts_run k.lawful g k.dyn exp l st s hI h
  obtain ⟨f1', _⟩ := inserts_run k.lawful g k.dyn exp l' st s' hI h'
  obtain ⟨a1, a2, a3, _⟩ := gridRun_spec k.lawful g k.dyn exp _ st s hI h
  obtain ⟨b1, b2, b3, _⟩ := gridRun_spec k.lawful g k.dyn exp _ st s' hI h'
  rw [← accOps_eq (Multiset (Pt K d)) g hr k, ← accOps_eq (Multiset (Pt K d)) g hr k, ← hv] at hl
  set P := g.toMap p with hP
  have hcell : ∀ c, c < 2 ^ d → ∀ q, generateIndex (toBundleIndex g.r q) c = generateIndex (toBundleIndex g.r P) c → Spec.ShareCell g.r P q := fun c hc q e =>
    ⟨c, hc, _, (C01_point_in_selected_cell hr P c _).1 rfl, (C01_point_in_selected_cell hr q c _).1 e⟩
  have hbun : ∀ q, toBundleIndex g.r q = toBundleIndex g.r P → Spec.ShareCell g.r P q := fun q e => hcell 0 (Nat.pow_pos (by norm_num)) q (by rw [e])
  have main : ∀ (w : Nat → K) (f : Multiset (Pt K d) → K), sampleWith k.dyn w f (toBundleIndex g.r P) s' = sampleWith k.dyn w f (toBundleIndex g.r P) s := by
    intro w f
    refine sampleWith_ext k.lawful k.dyn w f _ s s' a1 b1 (b2.okB.trans a2.okB.symm) ((b2.valid _).trans (a2.valid _).symm) ?_ ?_
    · have hfl : s'.abs.flags (toBundleIndex g.r P) = s.abs.flags (toBundleIndex g.r P) := by
        rw [f1, f1']
        have hh := near_filter hl (fun q => toBundleIndex g.r q = toBundleIndex g.r P) hbun
        have : (∃ q ∈ accOps g (st.abs.valid k.dyn) (inserts l), toBundleIndex g.r q = toBundleIndex g.r P) ↔
            ∃ q ∈ accOps g (st.abs.valid k.dyn) (inserts l'), toBundleIndex g.r q = toBundleIndex g.r P := by
          have hm : ∀ (A : List (Pt K d)), (∃ q ∈ A, toBundleIndex g.r q = toBundleIndex g.r P) ↔
              ∃ q, q ∈ (A : Multiset (Pt K d)).filter fun q => toBundleIndex g.r q = toBundleIndex g.r P := by
            intro A
            simp only [Multiset.mem_filter, Multiset.mem_coe]
          rw [hm, hm, hh]
        by_cases x : ∃ q ∈ accOps g (st.abs.valid k.dyn) (inserts l), toBundleIndex g.r q = toBundleIndex g.r P
        · rw [if_pos x, if_pos (this.1 x)]
        · rw [if_neg x, if_neg (fun y => x (this.2 y))]
      show (s'.abs.flags _).isSome = true ↔ (s.abs.flags _).isSome = true
      rw [hfl]
    · intro c hc
      rw [a3 c hc, b3 c hc]
      have hh := near_filter hl (fun q => generateIndex (toBundleIndex g.r q) c = generateIndex (toBundleIndex g.r P) c) (hcell c hc)
      refine congrArg (st.abs.val c (generateIndex (toBundleIndex g.r P) c) + ·) ?_
      have e : ∀ (A : List (Pt K d)), ((A.filter fun q => decide (generateIndex (toBundleIndex g.r q) c = generateIndex (toBundleIndex g.r P) c) : List (Pt K d)) : Multiset (Pt K d)) =
          (A : Multiset (Pt K d)).filter fun q => generateIndex (toBundleIndex g.r q) c = generateIndex (toBundleIndex g.r P) c := by
        intro A
        rw [Multiset.filter_coe]
      rw [e, e, hh]
  exact ⟨main _ _, main _ _⟩

/-- **C99** (NDT maps, metric form). Inserting a cloud whose accepted points all differ from `p` by at least the resolution in some coordinate (in map coordinates) does not change the samples at `p`. -/
theorem C99_far_insertion (k : Kind d) (g : Geo K d) (hr : 0 < g.r) (exp : Multiset (Pt K d) → Bool) (st : St k.backend (Multiset (Pt K d))) (hst : Reachable k g exp st) (pose : Pt K d → Pt K d) (cloud : List (Pt K d))
    (s : St k.backend (Multiset (Pt K d))) (h : gridInsert g k.dyn pose cloud st = some s) (dens : Multiset (Pt K d) → Pt K d → K) (p : Pt K d)
    (hfar : ∀ q ∈ Spec.acceptedPoints g k pose cloud, ∃ a, g.r ≤ |q a - g.toMap p a|) :
    sampleNNAt g k.dyn dens p s = sampleNNAt g k.dyn dens p st ∧ sampleBilinearAt g k.dyn dens p s = sampleBilinearAt g k.dyn dens p st := by
  classical
  have h1 : gridRun g k.dyn exp (inserts [(pose, cloud)]) st = some s := by
    show (gridStep g k.dyn exp (.insert pose cloud) st).bind _ = some s
    rw [show gridStep g k.dyn exp (.insert pose cloud) st = some s from h]; rfl
  have hz : (Spec.accepted g k (inserts [(pose, cloud)])).filter (Spec.ShareCell g.r (g.toMap p)) = 0 := by
    rw [Multiset.filter_eq_nil]
    intro q hq hsh
    have hq' : q ∈ Spec.acceptedPoints g k pose cloud + 0 := hq
    rw [add_zero] at hq'
    obtain ⟨a, ha⟩ := hfar q hq'
    exact absurd ((C99_share_near hr (g.toMap p) q).1 hsh a) (not_lt.2 ha)
  have := C99_insertions k g hr exp st hst [] [(pose, cloud)] st s rfl h1 dens p (by rw [hz]; rfl)
  exact this

open scoped Classical in
/-- **C99** (after neighbourhood allocation). Two histories of any operations, on maps of any class, that end with neighbourhood allocation (possibly followed by lookups and further allocations): if both accept the same points among those
that share a cell with `p`, and both maps cover `p`, then the samples at `p` agree. -/
theorem C99_expanded (k k' : Kind d) (g : Geo K d) (hr : 0 < g.r) (exp : Multiset (Pt K d) → Bool) (hexp : exp 0 = false) (ops ops' : List (GridOp K d)) (more more' : List (CoreOp d))
    (st : St k.backend (Multiset (Pt K d))) (h : gridRun g k.dyn exp (expandedHistory ops more) (k.init _) = some st)
    (st' : St k'.backend (Multiset (Pt K d))) (h' : gridRun g k'.dyn exp (expandedHistory ops' more') (k'.init _) = some st') (p : Pt K d)
    (hpts : (Spec.accepted g k ops).filter (Spec.ShareCell g.r (g.toMap p)) = (Spec.accepted g k' ops').filter (Spec.ShareCell g.r (g.toMap p)))
    (dens : Multiset (Pt K d) → Pt K d → K) (hd : ∀ s q, exp s = false → dens s q = 0) (hp : Spec.Region g.r k (g.toMap p)) (hp' : Spec.Region g.r k' (g.toMap p)) (x x' : K) :
    (sampleNNAt g k.dyn dens p st = some x → sampleNNAt g k'.dyn dens p st' = some x' → x = x') ∧
    (sampleBilinearAt g k.dyn dens p st = some x → sampleBilinearAt g k'.dyn dens p st' = some x' → x = x') := by
  obtain ⟨a1, a2⟩ := C90_field_of_points k g hr exp hexp ops more st h dens hd p hp x
  obtain ⟨b1, b2⟩ := C90_field_of_points k' g hr exp hexp ops' more' st' h' dens hd p hp' x'
  have hm : ∀ c, c < 2 ^ d → cellMates g.r (Spec.accepted g k ops) c (g.toMap p) = cellMates g.r (Spec.accepted g k' ops') c (g.toMap p) := by
    intro c hc
    unfold cellMates
    exact near_filter hpts _ fun q ⟨i, hi⟩ => ⟨c, hc, i, hi⟩
  constructor
  · intro hx hx'
    rw [a1 hx, b1 hx']
    exact congrArg (· / 2 ^ d) (Finset.sum_congr rfl fun c hc => by rw [hm c (Finset.mem_range.1 hc)])
  · intro hx hx'
    have hi : ∀ c, Spec.InCell g.r c (generateIndex (toBundleIndex g.r (g.toMap p)) c) (g.toMap p) := fun c => (C01_point_in_selected_cell hr _ c _).1 rfl
    rw [a2 hx _ hi, b2 hx' _ hi]
    exact Finset.sum_congr rfl fun c hc => by rw [hm c (Finset.mem_range.1 hc)]

/-! ### Occupancy maps -/

variable {W E : Type} [AddCommMonoid W]

/-- what a scan adds, and where -/
theorem scan_effects (fl : Flavour K d W E) (hmean : ∀ s : Multiset (Pt K d), fl.mean (s.map fl.sample) = Spec.meanOf s) (g : Geo K d) (hr : 0 < g.r) (k : Kind d)
    (defRay : Pt K d → Pt K d → List (Idx d)) (exp : Occ W E → Bool) (op : OccMapOp K d W E) (hop : ∀ c, op ≠ .core c) (st st' : St k.backend (Occ W E)) (hI : RInv k.lawful k.dyn st)
    (hk : Keeps k.dyn (k.init (Occ W E)).abs st.abs) (h : occStep fl g k.dyn defRay exp op st = some st') :
    ∃ l : List (Idx d × Occ W E), occAdd k.dyn l st = some st' ∧ ∀ b ∈ l.map Prod.fst, Spec.OpTouches g k defRay op b := by
  have hv : st.valid k.dyn = (k.init (Occ W E)).abs.valid k.dyn := funext hk.valid
  have plain : ∀ s, occInsert fl g k.dyn s st = some st' → ∃ l : List (Idx d × Occ W E), occAdd k.dyn l st = some st' ∧ ∀ b ∈ l.map Prod.fst, Spec.Touches g k s b := by
    intro s h
    rw [occInsert_eq k.lawful fl g k.dyn s st hI, hv] at h
    exact ⟨_, h, fun b hb => (mem_insertEffects fl hmean g hr k s b).1 hb⟩
  have fb : ∀ s : Scan K d W, occInsert fl g k.dyn (if fl.fallbackDefault then { s with ray := defRay } else s) st = some st' →
      ∃ l : List (Idx d × Occ W E), occAdd k.dyn l st = some st' ∧ ∀ b ∈ l.map Prod.fst, Spec.Touches g k s b ∨ Spec.Touches g k { s with ray := defRay } b := by
    intro s h
    obtain ⟨l, h1, h2⟩ := plain _ h
    refine ⟨l, h1, fun b hb => ?_⟩
    have := h2 b hb
    split at this
    · exact Or.inr this
    · exact Or.inl this
  cases op with
  | core c => exact absurd rfl (hop c)
  | insert s => exact plain s h
  | insertVisible s occ vm =>
    simp only [occStep] at h
    cases occ with
    | none => exact fb s h
    | some occ =>
      cases vm with
      | none => exact fb s h
      | some vm =>
        obtain ⟨hs, hsub, hh⟩ := occInsertVisible_spec k.lawful fl g k.dyn defRay s occ vm st st' hI h
        rw [hv] at hsub hh
        have hkey : ∀ b ∈ (hs.map hitOf : List (Idx d × Occ W E)).map Prod.fst, Spec.Touches g k s b := by
          intro b hb
          refine (mem_insertEffects fl hmean g hr k s b).1 ?_
          unfold insertEffects
          rw [List.map_append, List.mem_append]
          exact Or.inl (((hsub.map hitOf).map Prod.fst).subset hb)
        have hfree : ∀ b ∈ ((insertFree fl g ((k.init (Occ W E)).abs.valid k.dyn) true s).map missOf : List (Idx d × Occ W E)).map Prod.fst, Spec.Touches g k s b := by
          intro b hb
          refine (mem_insertEffects fl hmean g hr k s b).1 ?_
          unfold insertEffects
          rw [List.map_append, List.mem_append]
          right
          rw [List.map_map] at hb ⊢
          have e' : ((Prod.fst : Idx d × Occ W E → Idx d) ∘ missOf) = (Prod.fst : Idx d × W → Idx d) := rfl
          rw [e'] at hb ⊢
          unfold insertFree at hb ⊢
          rw [((s.order_perm _).map Prod.fst).mem_iff] at hb ⊢
          simp only at hb ⊢
          cases fl.eraseHits with
          | true => exact hb
          | false =>
            rw [if_pos trivial] at hb
            unfold eraseKeys at hb
            exact (List.filter_sublist.map Prod.fst).subset hb
        rcases hh with hh | hh
        · exact ⟨_, hh, hkey⟩
        · refine ⟨_, hh, fun b hb => ?_⟩
          rw [List.map_append, List.mem_append] at hb
          exact hb.elim (hkey b) (hfree b)

theorem scan_sample (fl : Flavour K d W E) (hmean : ∀ s : Multiset (Pt K d), fl.mean (s.map fl.sample) = Spec.meanOf s) (g : Geo K d) (hr : 0 < g.r) (k : Kind d)
    (defRay : Pt K d → Pt K d → List (Idx d)) (exp : Occ W E → Bool) (bp : Idx d) (w : Nat → K) (f : Occ W E → K) : ∀ (ops : List (OccMapOp K d W E)) (st st' : St k.backend (Occ W E)),
    RInv k.lawful k.dyn st → Keeps k.dyn (k.init (Occ W E)).abs st.abs → occRun fl g k.dyn defRay exp ops st = some st' →
    (∀ op ∈ ops, ∀ b, Spec.OpTouches g k defRay op b → ¬ Spec.Neighbour bp b) → sampleWith k.dyn w f bp st' = sampleWith k.dyn w f bp st
  | [], st, st', _, _, h, _ => by cases h; rfl
  | op :: ops, st, st', hI, hk, h, hfar => by
    simp only [occRun] at h
    obtain ⟨s1, h1, h2⟩ := Option.bind_eq_some_iff.1 h
    have hop : ∀ c, op ≠ .core c := by
      rintro c rfl
      exact hfar _ List.mem_cons_self bp trivial fun a => by simp
    obtain ⟨l, hl, hb⟩ := scan_effects fl hmean g hr k defRay exp op hop st s1 hI hk h1
    obtain ⟨a1, a2, a3, a4, _⟩ := occAdd_spec k.lawful k.dyn l st s1 hI hl
    have ih := scan_sample fl hmean g hr k defRay exp bp w f ops s1 st' a1 (hk.trans a2) h2 fun o ho => hfar o (List.mem_cons_of_mem _ ho)
    refine ih.trans ?_
    have hn : ∀ b ∈ l.map Prod.fst, ¬ Spec.Neighbour bp b := fun b hb' => hfar op List.mem_cons_self b (hb b hb')
    refine sampleWith_ext k.lawful k.dyn w f bp st s1 hI a1 a2.okB (a2.valid bp) ?_ ?_
    · show (s1.abs.flags _).isSome = true ↔ (st.abs.flags _).isSome = true
      rw [a4, if_neg fun hm => hn bp hm fun a => by simp]
    · intro c hc
      rw [a3 c hc]
      have : l.filter (fun e => decide (generateIndex e.1 c = generateIndex bp c)) = [] := by
        rw [List.filter_eq_nil_iff]
        intro e he hh
        exact hn e.1 (List.mem_map.2 ⟨e, he, rfl⟩) (neighbour_of_shared c bp e.1 (of_decide_eq_true hh).symm)
      rw [this]
      exact add_zero _

/-- **C99** (occupancy maps). Insert any scans (plain or with the visibility test) into a reachable map. If none of them touches the bundle of `p` or one of its neighbours — with a hit or with a ray — then the plain and bilinear samples
at `p`, for every inverse model, stay as they were. -/
theorem C99_scans {M : Type} (k : Kind d) (g : Geo K d) (hr : 0 < g.r) (defRay : Pt K d → Pt K d → List (Idx d)) (exp : Occ Nat (Pt K d) → Bool) (st st' : St k.backend (Occ Nat (Pt K d)))
    (hst : OccReachable (occFlavour K d) k g defRay exp st) (ops : List (OccMapOp K d Nat (Pt K d))) (h : occRun (occFlavour K d) g k.dyn defRay exp ops st = some st')
    (p : Pt K d) (bp : Idx d) (hbp : Spec.InBundle g.r bp (g.toMap p)) (hfar : ∀ op ∈ ops, ∀ b, Spec.OpTouches g k defRay op b → ¬ Spec.Neighbour bp b)
    (dens : Multiset (Pt K d) → Pt K d → K) (occ : M → Occ Nat (Pt K d) → K) (ivm : Option M) :
    occSampleNNAt g k.dyn dens occ p ivm st' = occSampleNNAt g k.dyn dens occ p ivm st ∧ occSampleBilinearAt g k.dyn dens occ p ivm st' = occSampleBilinearAt g k.dyn dens occ p ivm st := by
  have e := (C01_bundle_contains_point hr (g.toMap p) bp).2 hbp
  have main := fun w f => scan_sample (occFlavour K d) occFlavour_mean g hr k defRay exp bp w f ops st st' hst.rinv hst.keeps h hfar
  rw [← e] at main
  cases ivm with
  | none => exact ⟨rfl, rfl⟩
  | some m => exact ⟨congrArg Except.ok (main _ _), congrArg Except.ok (main _ _)⟩

/-- **C99** (weighted occupancy maps). -/
theorem C99_scans_weighted {M : Type} (k : Kind d) (g : Geo K d) (hr : 0 < g.r) (defRay : Pt K d → Pt K d → List (Idx d)) (exp : Occ K (Pt K d × K) → Bool) (st st' : St k.backend (Occ K (Pt K d × K)))
    (hst : OccReachable (weightedFlavour K d) k g defRay exp st) (ops : List (OccMapOp K d K (Pt K d × K))) (h : occRun (weightedFlavour K d) g k.dyn defRay exp ops st = some st')
    (p : Pt K d) (bp : Idx d) (hbp : Spec.InBundle g.r bp (g.toMap p)) (hfar : ∀ op ∈ ops, ∀ b, Spec.OpTouches g k defRay op b → ¬ Spec.Neighbour bp b)
    (dens : Multiset (Pt K d × K) → Pt K d → K) (occ : M → Occ K (Pt K d × K) → K) (ivm : Option M) :
    occSampleNNAt g k.dyn dens occ p ivm st' = occSampleNNAt g k.dyn dens occ p ivm st ∧ occSampleBilinearAt g k.dyn dens occ p ivm st' = occSampleBilinearAt g k.dyn dens occ p ivm st := by
  have e := (C01_bundle_contains_point hr (g.toMap p) bp).2 hbp
  have main := fun w f => scan_sample (weightedFlavour K d) weightedFlavour_mean g hr k defRay exp bp w f ops st st' hst.rinv hst.keeps h hfar
  rw [← e] at main
  cases ivm with
  | none => exact ⟨rfl, rfl⟩
  | some m => exact ⟨congrArg Except.ok (main _ _), congrArg Except.ok (main _ _)⟩

end
/-! ### Concrete cases -/

theorem local_mem {k : Kind 1} {cloud : List (Pt ℚ 1)} {q : Pt ℚ 1} (hq : q ∈ Spec.acceptedPoints fieldGeo k id cloud) : q ∈ cloud := by
  classical
  unfold Spec.acceptedPoints at hq
  have := (Multiset.mem_filter.1 hq).1
  simpa [fieldGeo] using this

/-- a map in one dimension with the bundles `-1 … 3` of edge `1/2` -/
def localKind : Kind 1 := .static (fun _ => 3) (fun _ => -1)
def localStart : Option (St localKind.backend (Multiset (Pt ℚ 1))) := gridRun fieldGeo false fieldExp [.insert id [fun _ => 1 / 10, fun _ => -2 / 5]] (localKind.init _)
theorem localStart_runs : localStart.isSome = true := by decide +kernel
/-- a cloud with one accepted point at distance 1 of `1/10`, and one rejected point -/
def localFar : Option (St localKind.backend (Multiset (Pt ℚ 1))) := gridInsert fieldGeo false id [fun _ => 11 / 10, fun _ => 5] (localStart.get localStart_runs)
theorem localFar_runs : localFar.isSome = true := by decide +kernel
/-- a cloud with one point at distance `89/100` -/
def localClose : Option (St localKind.backend (Multiset (Pt ℚ 1))) := gridInsert fieldGeo false id [fun _ => 99 / 100] (localStart.get localStart_runs)
theorem localClose_runs : localClose.isSome = true := by decide +kernel

theorem localStart_reachable : Reachable localKind fieldGeo fieldExp (localStart.get localStart_runs) := ⟨_, (Option.some_get localStart_runs).symm⟩

/-- Non-vacuity of `C99_far_insertion`: the far point is stored, and the sample at `1/10` is `3/2` before and after. -/
example : ∃ s, gridInsert fieldGeo localKind.dyn id [fun _ => 11 / 10, fun _ => 5] (localStart.get localStart_runs) = some s ∧
    (∀ q ∈ Spec.acceptedPoints fieldGeo localKind id [fun _ => 11 / 10, fun _ => 5], ∃ a, fieldGeo.r ≤ |q a - fieldGeo.toMap (fun _ => 1 / 10) a|) ∧
    sampleNNAt fieldGeo false fieldDens (fun _ => 1 / 10) s = some (3 / 2) ∧ sampleNNAt fieldGeo false fieldDens (fun _ => 11 / 10) s = some 1 := by
  refine ⟨_, (Option.some_get localFar_runs).symm, ?_, by decide +kernel, by decide +kernel⟩
  intro q hq
  have hq'' : q ∈ ([fun _ => 11 / 10, fun _ => 5] : List (Pt ℚ 1)) := local_mem hq
  refine ⟨0, ?_⟩
  rcases List.mem_cons.1 hq'' with rfl | h
  · show (1 : ℚ) ≤ |11 / 10 - 1 / 10|
    norm_num
  · rw [List.mem_singleton.1 h]
    show (1 : ℚ) ≤ |5 - 1 / 10|
    rw [abs_of_pos (by norm_num)]
    norm_num

/-- **C99** (the distance cannot be shortened much): a point at the distance `89/100` of the resolution changes the sample. -/
theorem C99_distance_needed : ∃ (k : Kind 1) (g : Geo ℚ 1) (exp : Multiset (Pt ℚ 1) → Bool) (st s : St k.backend (Multiset (Pt ℚ 1))) (cloud : List (Pt ℚ 1)) (p : Pt ℚ 1)
    (dens : Multiset (Pt ℚ 1) → Pt ℚ 1 → ℚ), Reachable k g exp st ∧ gridInsert g k.dyn id cloud st = some s ∧
    (∀ q ∈ Spec.acceptedPoints g k id cloud, ∃ a, 89 / 100 * g.r ≤ |q a - g.toMap p a|) ∧ sampleNNAt g k.dyn dens p s ≠ sampleNNAt g k.dyn dens p st := by
  refine ⟨localKind, fieldGeo, fieldExp, _, _, [fun _ => 99 / 100], fun _ => 1 / 10, fieldDens, localStart_reachable, (Option.some_get localClose_runs).symm, ?_, by decide +kernel⟩
  intro q hq
  have hq'' : q ∈ ([fun _ => 99 / 100] : List (Pt ℚ 1)) := local_mem hq
  refine ⟨0, ?_⟩
  rw [List.mem_singleton.1 hq'']
  show 89 / 100 * (1 : ℚ) ≤ |99 / 100 - 1 / 10|
  norm_num

/-- a scan with a hit in bundle `0` and a ray through bundle `-1` -/
def localScan : Scan ℚ 1 Nat := { pose := id, cloud := [fun _ => 1 / 5], ray := fun _ _ => [fun _ => -1], order := id, order_perm := fun l => List.Perm.refl l }
def localScan2 : Scan ℚ 1 Nat := { localScan with cloud := [fun _ => 6 / 5] }
def localOcc : Option (St localKind.backend (Occ Nat (Pt ℚ 1))) := occRun (occFlavour ℚ 1) fieldGeo localKind.dyn (fun _ _ => []) fieldOccExp [.insert localScan2] (localKind.init _)
theorem localOcc_runs : localOcc.isSome = true := by decide +kernel
def localOcc' : Option (St localKind.backend (Occ Nat (Pt ℚ 1))) := occRun (occFlavour ℚ 1) fieldGeo localKind.dyn (fun _ _ => []) fieldOccExp [.insert localScan] (localOcc.get localOcc_runs)
theorem localOcc'_runs : localOcc'.isSome = true := by decide +kernel

/-- Non-vacuity of `C99_scans`: the scan touches the bundles `0` and `-1`, the sample is taken in bundle `2`. -/
example : ∃ st st' : St localKind.backend (Occ Nat (Pt ℚ 1)), OccReachable (occFlavour ℚ 1) localKind fieldGeo (fun _ _ => []) fieldOccExp st ∧
    occRun (occFlavour ℚ 1) fieldGeo localKind.dyn (fun _ _ => []) fieldOccExp [.insert localScan] st = some st' ∧ Spec.InBundle fieldGeo.r (fun _ => 2) (fieldGeo.toMap fun _ => 11 / 10) ∧
    (∀ b, Spec.Touches fieldGeo localKind localScan b → ¬ Spec.Neighbour (fun _ => 2) b) ∧
    occSampleNNAt fieldGeo localKind.dyn (fun s _ => (s.card : ℚ)) (fun (_ : Unit) _ => 1) (fun _ => 11 / 10) (some ()) st' = .ok (some 1) := by
  refine ⟨_, _, ⟨_, (Option.some_get localOcc_runs).symm⟩, (Option.some_get localOcc'_runs).symm, ?_, ?_, by decide +kernel⟩
  · intro a
    simp only [fieldGeo, id]
    norm_num
  · have hh : ∀ b, b ∈ Spec.hitBundles fieldGeo localKind localScan → b = fun _ => 0 := by
      intro b hb
      unfold Spec.hitBundles Spec.hits at hb
      rw [Multiset.mem_toFinset] at hb
      obtain ⟨q, hq, rfl⟩ := Multiset.mem_map.1 hb
      have hq' : q ∈ ([fun _ => 1 / 5] : List (Pt ℚ 1)) := local_mem hq
      rw [List.mem_singleton.1 hq']
      funext a
      show ⌊(1 / 5 : ℚ) / (1 / 2)⌋ = 0
      decide +kernel
    rintro b (hb | ⟨_, e, _, hb⟩) hn
    · rw [hh b hb] at hn
      exact absurd (hn 0) (by decide)
    · have : b = fun _ => -1 := List.mem_singleton.1 hb
      rw [this] at hn
      exact absurd (hn 0) (by decide)

end Ndt
