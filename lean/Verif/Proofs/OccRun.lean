import Verif.Proofs.OccMap
import Verif.Spec.OccPoints
import Verif.Props.Index
import Mathlib.Algebra.BigOperators.Group.Finset.Piecewise

/-! Histories of operations on occupancy maps. -/

namespace Ndt
open St Abs

section
variable {K : Type} [Field K] [LinearOrder K] [FloorRing K] {d : Nat} {W E : Type} [AddCommMonoid W] {B : Backend d}

/-- the map received hits of some of the groups, and then (unless the scan was aborted) the misses of all rays outside of hit bundles -/
theorem occInsertVisible_spec (L : B.Lawful) (fl : Flavour K d W E) (g : Geo K d) (dyn : Bool) (defRay : Pt K d → Pt K d → List (Idx d)) (s : Scan K d W)
    (occ : Occ W E → K) (vm : VisModel K) (st st' : St B (Occ W E)) (hI : RInv L dyn st)
    (h : occInsertVisible fl g dyn defRay s (some occ) (some vm) st = some st') :
    ∃ hs : List (Idx d × Multiset E), hs.Sublist (occCollect fl g (st.valid dyn) s.pose s.cloud) ∧
      (occAdd dyn (hs.map hitOf) st = some st' ∨
       occAdd dyn (hs.map hitOf ++ (insertFree fl g (st.valid dyn) true s).map missOf) st = some st') := by
  simp only [occInsertVisible] at h
  cases hv : visHits fl dyn s.ray occ vm (rayStart g s.pose) (toBundleIndex g.r (rayStart g s.pose)) (occCollect fl g (st.valid dyn) s.pose s.cloud) [] st with
  | none => rw [hv] at h; cases h
  | some y =>
    obtain ⟨o, st1⟩ := y
    obtain ⟨⟨hs, h1, h2⟩, h3⟩ := visHits_spec L fl dyn _ occ vm _ _ (st.valid dyn) _ _ st hI rfl o st1 hv
    rw [hv] at h
    refine ⟨hs, h1, ?_⟩
    cases o with
    | none => cases h; exact Or.inl h2
    | some f =>
      right
      simp only [occFree_eq] at h
      rw [occAdd_append, h2, Option.bind_some, ← h, h3 f rfl]
      rfl

/-- every operation preserves the invariants -/
theorem occStep_inv (L : B.Lawful) (fl : Flavour K d W E) (g : Geo K d) (dyn : Bool) (defRay : Pt K d → Pt K d → List (Idx d)) (exp : Occ W E → Bool)
    (op : OccMapOp K d W E) (st st' : St B (Occ W E)) (hI : RInv L dyn st) (h : occStep fl g dyn defRay exp op st = some st') :
    RInv L dyn st' ∧ Keeps dyn st.abs st'.abs := by
  cases op with
  | insert s =>
    simp only [occStep, occInsert_eq L fl g dyn s st hI] at h
    obtain ⟨a, b, _⟩ := occAdd_spec L dyn _ st st' hI h
    exact ⟨a, b⟩
  | insertVisible s occ vm =>
    simp only [occStep] at h
    have fb : ∀ s', occInsert fl g dyn s' st = some st' → RInv L dyn st' ∧ Keeps dyn st.abs st'.abs := by
      intro s' h
      rw [occInsert_eq L fl g dyn s' st hI] at h
      obtain ⟨a, b, _⟩ := occAdd_spec L dyn _ st st' hI h
      exact ⟨a, b⟩
    cases occ with
    | none => exact fb _ h
    | some occ =>
      cases vm with
      | none => exact fb _ h
      | some vm =>
        obtain ⟨hs, _, h | h⟩ := occInsertVisible_spec L fl g dyn defRay s occ vm st st' hI h
        · obtain ⟨a, b, _⟩ := occAdd_spec L dyn _ st st' hI h; exact ⟨a, b⟩
        · obtain ⟨a, b, _⟩ := occAdd_spec L dyn _ st st' hI h; exact ⟨a, b⟩
  | core op =>
    obtain ⟨a, b⟩ := coreStep_spec L dyn exp op st hI st' h
    exact ⟨a, b.keeps⟩

theorem occRun_inv (L : B.Lawful) (fl : Flavour K d W E) (g : Geo K d) (dyn : Bool) (defRay : Pt K d → Pt K d → List (Idx d)) (exp : Occ W E → Bool) :
    ∀ (ops : List (OccMapOp K d W E)) (st st' : St B (Occ W E)), RInv L dyn st → occRun fl g dyn defRay exp ops st = some st' →
    RInv L dyn st' ∧ Keeps dyn st.abs st'.abs
  | [], st, st', hI, h => by cases h; exact ⟨hI, .refl ..⟩
  | op :: ops, st, st', hI, h => by
    simp only [occRun] at h
    obtain ⟨st1, h1, h2⟩ := Option.bind_eq_some_iff.1 h
    obtain ⟨a1, a2⟩ := occStep_inv L fl g dyn defRay exp op st st1 hI h1
    obtain ⟨b1, b2⟩ := occRun_inv L fl g dyn defRay exp ops st1 st' a1 h2
    exact ⟨b1, a2.trans b2⟩

theorem insertEffects_valid (fl : Flavour K d W E) (g : Geo K d) (ok : Idx d → Bool) (s : Scan K d W) : ∀ e ∈ insertEffects fl g ok s, ok e.1 = true := by
  intro e he
  rcases List.mem_append.1 he with he | he
  · obtain ⟨x, hx, rfl⟩ := List.mem_map.1 he
    exact occCollect_valid fl g ok s.pose s.cloud x hx
  · obtain ⟨x, hx, rfl⟩ := List.mem_map.1 he
    have hx' := (s.order_perm _).mem_iff.1 hx
    have hr := mem_rayFree fl ok s.ray (rayStart g s.pose) (occCollect fl g ok s.pose s.cloud) [] (by simp)
    simp only at hx'
    split at hx'
    · exact hr _ (List.mem_map.2 ⟨x, (List.mem_filter.1 hx').1, rfl⟩)
    · exact hr _ (List.mem_map.2 ⟨x, hx', rfl⟩)

theorem insertFree_valid (fl : Flavour K d W E) (g : Geo K d) (ok : Idx d → Bool) (b : Bool) (s : Scan K d W) : ∀ e ∈ insertFree fl g ok b s, ok e.1 = true := by
  intro x hx
  have hx' := (s.order_perm _).mem_iff.1 hx
  have hr := mem_rayFree fl ok s.ray (rayStart g s.pose) (occCollect fl g ok s.pose s.cloud) [] (by simp)
  simp only at hx'
  split at hx'
  · exact hr _ (List.mem_map.2 ⟨x, (List.mem_filter.1 hx').1, rfl⟩)
  · exact hr _ (List.mem_map.2 ⟨x, hx', rfl⟩)

theorem occInsert_total (L : B.Lawful) (fl : Flavour K d W E) (g : Geo K d) (dyn : Bool) (s : Scan K d W) (st : St B (Occ W E)) (hI : RInv L dyn st)
    (hv : ∀ i, st.abs.valid dyn i = true → st.abs.Good i) : ∃ st', occInsert fl g dyn s st = some st' := by
  rw [occInsert_eq L fl g dyn s st hI]
  exact occAdd_total L dyn _ st hI fun e he => hv _ (insertEffects_valid fl g _ s e he)

theorem occStep_total (L : B.Lawful) (fl : Flavour K d W E) (g : Geo K d) (dyn : Bool) (defRay : Pt K d → Pt K d → List (Idx d)) (exp : Occ W E → Bool)
    (op : OccMapOp K d W E) (st : St B (Occ W E)) (hI : RInv L dyn st) (hv : ∀ i, st.abs.valid dyn i = true → st.abs.Good i) :
    ∃ st', occStep fl g dyn defRay exp op st = some st' := by
  cases op with
  | insert s => exact occInsert_total L fl g dyn s st hI hv
  | insertVisible s occ vm =>
    cases occ with
    | none => exact occInsert_total L fl g dyn _ st hI hv
    | some occ =>
      cases vm with
      | none => exact occInsert_total L fl g dyn _ st hI hv
      | some vm =>
        simp only [occStep, occInsertVisible]
        obtain ⟨⟨o, st1⟩, hy⟩ := visHits_total L dyn fl s.ray occ vm (rayStart g s.pose) (toBundleIndex g.r (rayStart g s.pose))
          (occCollect fl g (st.valid dyn) s.pose s.cloud) [] st hI hv (occCollect_valid fl g _ _ _)
        obtain ⟨⟨hs, h1, h2⟩, h3⟩ := visHits_spec L fl dyn _ occ vm _ _ (st.valid dyn) _ _ st hI rfl o st1 hy
        obtain ⟨a1, a2, _⟩ := occAdd_spec L dyn _ st st1 hI h2
        rw [hy]
        cases o with
        | none => exact ⟨_, rfl⟩
        | some f =>
          simp only [occFree_eq]
          refine occAdd_total L dyn _ st1 a1 fun e he => ?_
          obtain ⟨x, hx, rfl⟩ := List.mem_map.1 he
          refine (a2.good _).2 (hv _ ?_)
          refine insertFree_valid fl g _ true s x ?_
          rw [h3 f rfl] at hx
          exact hx
  | core op => exact coreStep_total L dyn exp op st hI hv

theorem occRun_total (L : B.Lawful) (fl : Flavour K d W E) (g : Geo K d) (dyn : Bool) (defRay : Pt K d → Pt K d → List (Idx d)) (exp : Occ W E → Bool) :
    ∀ (ops : List (OccMapOp K d W E)) (st : St B (Occ W E)), RInv L dyn st → (∀ i, st.abs.valid dyn i = true → st.abs.Good i) →
    ∃ st', occRun fl g dyn defRay exp ops st = some st'
  | [], st, _, _ => ⟨st, rfl⟩
  | op :: ops, st, hI, hv => by
    obtain ⟨s, hs⟩ := occStep_total L fl g dyn defRay exp op st hI hv
    obtain ⟨a1, a2⟩ := occStep_inv L fl g dyn defRay exp op st s hI hs
    obtain ⟨s', hs'⟩ := occRun_total L fl g dyn defRay exp ops s a1 (fun i h => (a2.good i).2 (hv i (by rw [← a2.valid]; exact h)))
    exact ⟨s', by simp only [occRun, hs, Option.bind_some, hs']⟩

/-- a call of `insert` or a core operation -/
def OccMapOp.Plain : OccMapOp K d W E → Prop
  | .insertVisible .. => False
  | _ => True

/-- contributions of an operation other than `insertVisible` -/
def opEffects (fl : Flavour K d W E) (g : Geo K d) (ok : Idx d → Bool) : OccMapOp K d W E → List (Idx d × Occ W E)
  | .insert s => insertEffects fl g ok s
  | _ => []

theorem occRun_spec (L : B.Lawful) (fl : Flavour K d W E) (g : Geo K d) (dyn : Bool) (defRay : Pt K d → Pt K d → List (Idx d)) (exp : Occ W E → Bool) :
    ∀ (ops : List (OccMapOp K d W E)) (st st' : St B (Occ W E)), RInv L dyn st → (∀ op ∈ ops, op.Plain) → occRun fl g dyn defRay exp ops st = some st' →
    (∀ c, c < 2 ^ d → ∀ i, st'.abs.val c i = st.abs.val c i +
      (ops.map fun op => (((opEffects fl g (st.abs.valid dyn) op).filter (fun e => decide (generateIndex e.1 c = i))).map Prod.snd).sum).sum)
  | [], st, st', hI, _, h => by cases h; simp
  | op :: ops, st, st', hI, hp, h => by
    simp only [occRun] at h
    obtain ⟨st1, h1, h2⟩ := Option.bind_eq_some_iff.1 h
    obtain ⟨a1, a2⟩ := occStep_inv L fl g dyn defRay exp op st st1 hI h1
    have b := occRun_spec L fl g dyn defRay exp ops st1 st' a1 (fun o ho => hp o (List.mem_cons_of_mem _ ho)) h2
    have hv : st1.abs.valid dyn = st.abs.valid dyn := funext a2.valid
    rw [hv] at b
    intro c hc i
    rw [b c hc i, List.map_cons, List.sum_cons, ← add_assoc]
    refine congrArg (· + _) ?_
    cases op with
    | insert s =>
      simp only [occStep, occInsert_eq L fl g dyn s st hI] at h1
      exact (occAdd_spec L dyn _ st st1 hI h1).2.2.1 c hc i
    | insertVisible s occ vm => exact absurd (hp _ (List.mem_cons_self ..)) id
    | core op =>
      have := (coreStep_spec L dyn exp op st hI st1 h1).2
      rw [this.val]
      simp [opEffects]

/-! #### no distribution without samples is ever attached -/

theorem collect_ne_zero (g : Geo K d) (ok : Idx d → Bool) (pose : Pt K d → Pt K d) (cloud : List (Pt K d)) (e : Idx d × Multiset (Pt K d))
    (he : e ∈ collect g ok pose cloud) : e.2 ≠ 0 := by
  rw [collect_value g ok pose cloud e he]
  obtain ⟨p, hp, hx⟩ := (mem_collect_keys g ok pose cloud e.1).1 (List.mem_map.2 ⟨e, he, rfl⟩)
  intro h
  have : p ∈ (((accList g ok pose cloud).filter (fun p => decide (toBundleIndex g.r p = e.1)) : List (Pt K d)) : Multiset (Pt K d)) := by
    rw [Multiset.mem_coe, List.mem_filter]; exact ⟨hp, decide_eq_true hx⟩
  rw [h] at this
  exact absurd this (Multiset.notMem_zero p)

omit [Field K] [LinearOrder K] [FloorRing K] in
theorem Occ.data_add_ne {o p : Occ W E} (ho : o.data ≠ some 0) (hp : p.data ≠ some 0) : (o + p).data ≠ some 0 := by
  rw [Occ.add_data]
  cases hx : o.data with
  | none => exact hp
  | some s =>
    cases hy : p.data with
    | none => rw [Occ.addData_none, ← hx]; exact ho
    | some t =>
      intro h
      have h0 : s + t = 0 := Option.some.inj h
      rw [hx] at ho
      exact ho (congrArg some (Multiset.le_zero.1 (h0 ▸ Multiset.le_add_right s t)))

omit [Field K] [LinearOrder K] [FloorRing K] in
theorem Occ.data_sum_ne : ∀ (l : List (Occ W E)), (∀ o ∈ l, o.data ≠ some 0) → l.sum.data ≠ some 0
  | [], _ => by rw [List.sum_nil]; intro h; cases h
  | o :: l, h => by
    rw [List.sum_cons]
    exact Occ.data_add_ne (h o (List.mem_cons_self ..)) (Occ.data_sum_ne l fun p hp => h p (List.mem_cons_of_mem _ hp))

theorem occCollect_ne_zero (fl : Flavour K d W E) (g : Geo K d) (ok : Idx d → Bool) (pose : Pt K d → Pt K d) (cloud : List (Pt K d)) :
    ∀ e ∈ occCollect fl g ok pose cloud, e.2 ≠ 0 := by
  intro e he
  obtain ⟨x, hx, rfl⟩ := List.mem_map.1 he
  intro h
  exact collect_ne_zero g ok pose _ x hx (Multiset.map_eq_zero.1 h)

theorem occAdd_ne (L : B.Lawful) (dyn : Bool) (l : List (Idx d × Occ W E)) (hl : ∀ e ∈ l, e.2.data ≠ some 0) (st st' : St B (Occ W E)) (hI : RInv L dyn st)
    (h : occAdd dyn l st = some st') (c : Nat) (hc : c < 2 ^ d) (i : Idx d) (h0 : (st.abs.val c i).data ≠ some 0) : (st'.abs.val c i).data ≠ some 0 := by
  rw [(occAdd_spec L dyn l st st' hI h).2.2.1 c hc i]
  refine Occ.data_add_ne h0 (Occ.data_sum_ne _ ?_)
  intro o ho
  obtain ⟨e, he, rfl⟩ := List.mem_map.1 ho
  exact hl e (List.mem_filter.1 he).1

theorem hits_ne (fl : Flavour K d W E) (g : Geo K d) (ok : Idx d → Bool) (s : Scan K d W) (hs : List (Idx d × Multiset E))
    (hsub : hs.Sublist (occCollect fl g ok s.pose s.cloud)) : ∀ e ∈ (hs.map hitOf : List (Idx d × Occ W E)), e.2.data ≠ some 0 := by
  intro e he
  obtain ⟨x, hx, rfl⟩ := List.mem_map.1 he
  intro h
  exact occCollect_ne_zero fl g ok s.pose s.cloud x (hsub.subset hx) (Option.some.inj h)

omit [Field K] [LinearOrder K] [FloorRing K] in
theorem misses_ne (f : List (Idx d × W)) : ∀ e ∈ (f.map missOf : List (Idx d × Occ W E)), e.2.data ≠ some 0 := by
  intro e he
  obtain ⟨x, hx, rfl⟩ := List.mem_map.1 he
  intro h; cases h

theorem occStep_ne (L : B.Lawful) (fl : Flavour K d W E) (g : Geo K d) (dyn : Bool) (defRay : Pt K d → Pt K d → List (Idx d)) (exp : Occ W E → Bool)
    (op : OccMapOp K d W E) (st st' : St B (Occ W E)) (hI : RInv L dyn st) (h : occStep fl g dyn defRay exp op st = some st')
    (c : Nat) (hc : c < 2 ^ d) (i : Idx d) (h0 : (st.abs.val c i).data ≠ some 0) : (st'.abs.val c i).data ≠ some 0 := by
  have fb : ∀ s', occInsert fl g dyn s' st = some st' → (st'.abs.val c i).data ≠ some 0 := by
    intro s' h
    rw [occInsert_eq L fl g dyn s' st hI] at h
    refine occAdd_ne L dyn _ ?_ st st' hI h c hc i h0
    intro e he
    rcases List.mem_append.1 he with he | he
    · exact hits_ne fl g _ s' _ (List.Sublist.refl _) e he
    · exact misses_ne _ e he
  cases op with
  | insert s => exact fb s h
  | insertVisible s occ vm =>
    simp only [occStep] at h
    cases occ with
    | none => exact fb _ h
    | some occ =>
      cases vm with
      | none => exact fb _ h
      | some vm =>
        obtain ⟨hs, hsub, h | h⟩ := occInsertVisible_spec L fl g dyn defRay s occ vm st st' hI h
        · exact occAdd_ne L dyn _ (hits_ne fl g _ s hs hsub) st st' hI h c hc i h0
        · refine occAdd_ne L dyn _ ?_ st st' hI h c hc i h0
          intro e he
          rcases List.mem_append.1 he with he | he
          · exact hits_ne fl g _ s hs hsub e he
          · exact misses_ne _ e he
  | core op =>
    rw [(coreStep_spec L dyn exp op st hI st' h).2.val]
    exact h0

theorem occRun_ne (L : B.Lawful) (fl : Flavour K d W E) (g : Geo K d) (dyn : Bool) (defRay : Pt K d → Pt K d → List (Idx d)) (exp : Occ W E → Bool)
    (c : Nat) (hc : c < 2 ^ d) (i : Idx d) :
    ∀ (ops : List (OccMapOp K d W E)) (st st' : St B (Occ W E)), RInv L dyn st → occRun fl g dyn defRay exp ops st = some st' →
    (st.abs.val c i).data ≠ some 0 → (st'.abs.val c i).data ≠ some 0
  | [], st, st', _, h, h0 => by cases h; exact h0
  | op :: ops, st, st', hI, h, h0 => by
    simp only [occRun] at h
    obtain ⟨st1, h1, h2⟩ := Option.bind_eq_some_iff.1 h
    exact occRun_ne L fl g dyn defRay exp c hc i ops st1 st' (occStep_inv L fl g dyn defRay exp op st st1 hI h1).1 h2
      (occStep_ne L fl g dyn defRay exp op st st1 hI h1 c hc i h0)

end

/-! #### conversion to the specification -/
section spec
variable {K : Type} [Field K] [LinearOrder K] [IsStrictOrderedRing K] [FloorRing K] {d : Nat} {W E : Type} [AddCommMonoid W]

omit [FloorRing K] in
theorem bundleInCell_iff [FloorRing K] {r : K} (hr : 0 < r) (b : Idx d) (c : Nat) (i : Idx d) : Spec.BundleInCell r b c i ↔ generateIndex b c = i := by
  constructor
  · intro h
    let p : Pt K d := fun a => (b a : K) * (r / 2)
    have hp : Spec.InBundle r b p := fun a => ⟨le_refl _, by
      show (b a : K) * (r / 2) < ((b a : K) + 1) * (r / 2)
      have : 0 < r / 2 := by linarith
      nlinarith⟩
    have := (C01_point_in_selected_cell hr p c i).2 (h p hp)
    rw [← this, (C01_bundle_contains_point hr p b).2 hp]
  · rintro rfl p hp
    have e := (C01_bundle_contains_point hr p b).2 hp
    refine (C01_point_in_selected_cell hr p c _).1 ?_
    rw [e]

theorem floor_bundle {r : K} (p : Pt K d) : (fun a : Fin d => ⌊p a / (r / 2)⌋) = toBundleIndex r p := by
  funext a
  unfold toBundleIndex
  rw [bundleResolutionInv_eq]
  congr 1
  rw [div_div_eq_mul_div, mul_div_assoc]

omit [IsStrictOrderedRing K] in
theorem validBundle_iff (D : Type) [Inhabited D] (k : Kind d) (b : Idx d) : (k.init D).abs.valid k.dyn b = true ↔ Spec.ValidBundle k b := by
  cases k with
  | dynamic g g' => exact iff_of_true rfl trivial
  | static size lo => exact Kind.static_valid size lo b

open scoped Classical in
theorem hitsIn_eq (D : Type) [Inhabited D] (g : Geo K d) (hr : 0 < g.r) (k : Kind d) (s : Scan K d W) (b : Idx d) :
    (((accList g ((k.init D).abs.valid k.dyn) s.pose (s.cloud.filter fun p => g.normal p)).filter (fun p => decide (toBundleIndex g.r p = b)) : List (Pt K d)) : Multiset (Pt K d)) =
      Spec.hitsIn g k s b := by
  unfold Spec.hitsIn Spec.hits
  rw [← accList_eq D g hr k, Multiset.filter_coe]
  refine congrArg _ (List.filter_congr fun p _ => ?_)
  rw [Bool.eq_iff_iff, decide_eq_true_iff, decide_eq_true_iff]
  exact C01_bundle_contains_point hr p b

theorem mem_hitBundles (D : Type) [Inhabited D] (g : Geo K d) (hr : 0 < g.r) (k : Kind d) (s : Scan K d W) (b : Idx d) :
    b ∈ Spec.hitBundles g k s ↔ b ∈ (collect g ((k.init D).abs.valid k.dyn) s.pose (s.cloud.filter fun p => g.normal p)).map Prod.fst := by
  rw [mem_collect_keys]
  unfold Spec.hitBundles Spec.hits
  rw [Multiset.mem_toFinset, Multiset.mem_map, ← accList_eq D g hr k]
  simp only [Multiset.mem_coe, floor_bundle]

open scoped Classical in
/-- free part of an insertion in terms of the specification -/
theorem insertEffects_misses (fl : Flavour K d W E) (hmean : ∀ s : Multiset (Pt K d), fl.mean (s.map fl.sample) = Spec.meanOf s)
    (g : Geo K d) (hr : 0 < g.r) (k : Kind d) (s : Scan K d W) (c : Nat) (i : Idx d) :
    (((insertEffects fl g ((k.init (Occ W E)).abs.valid k.dyn) s).filter (fun e => decide (generateIndex e.1 c = i))).map Prod.snd).sum.free =
      ∑ b ∈ Spec.hitBundles g k s, ((Spec.rayOf g k s b).filter fun x => decide (Spec.ValidBundle k x ∧ Spec.BundleInCell g.r x c i ∧
        (fl.eraseHits = true → x ∉ Spec.hitBundles g k s))).length • fl.amount ((Spec.hitsIn g k s b).map fl.sample) := by
  rw [insertEffects_free fl g _ s (fun b => decide (generateIndex b c = i))]
  have hkeys : (occCollect fl g ((k.init (Occ W E)).abs.valid k.dyn) s.pose s.cloud).map Prod.fst =
      (collect g ((k.init (Occ W E)).abs.valid k.dyn) s.pose (s.cloud.filter fun p => g.normal p)).map Prod.fst := by
    unfold occCollect; rw [List.map_map]; rfl
  rw [hkeys]
  have hfin : Spec.hitBundles g k s = ((collect g ((k.init (Occ W E)).abs.valid k.dyn) s.pose (s.cloud.filter fun p => g.normal p)).map Prod.fst).toFinset := by
    ext b; rw [mem_hitBundles (Occ W E) g hr k s b, List.mem_toFinset]
  refine Eq.trans ?_ (Finset.sum_congr hfin.symm fun _ _ => rfl)
  rw [List.sum_toFinset _ (collect_nodup g _ s.pose _), List.map_map]
  unfold occCollect
  rw [List.map_map]
  refine congrArg List.sum (List.map_congr_left fun e he => ?_)
  have hv : e.2 = Spec.hitsIn g k s e.1 := (collect_value g _ s.pose _ e he).trans (hitsIn_eq (Occ W E) g hr k s e.1)
  simp only [Function.comp_apply]
  rw [hv, hmean]
  have hf : ∀ x, ((k.init (Occ W E)).abs.valid k.dyn x && (decide (generateIndex x c = i) && (!fl.eraseHits ||
      !((collect g ((k.init (Occ W E)).abs.valid k.dyn) s.pose (s.cloud.filter fun p => g.normal p)).map Prod.fst).contains x))) =
      decide (Spec.ValidBundle k x ∧ Spec.BundleInCell g.r x c i ∧ (fl.eraseHits = true → x ∉ Spec.hitBundles g k s)) := by
    intro x
    rw [Bool.eq_iff_iff, decide_eq_true_iff, bundleInCell_iff hr, mem_hitBundles (Occ W E) g hr, ← validBundle_iff (Occ W E)]
    simp only [Bool.and_eq_true, decide_eq_true_eq, Bool.or_eq_true, Bool.not_eq_true', List.contains_eq_mem]
    refine and_congr Iff.rfl (and_congr Iff.rfl ?_)
    rw [decide_eq_false_iff_not]
    cases fl.eraseHits <;> simp
  rw [List.filter_congr (fun x _ => hf x)]
  rfl

end spec
end Ndt
