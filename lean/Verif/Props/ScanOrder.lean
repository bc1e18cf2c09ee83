import Verif.Props.OccVisible
import Verif.Spec.ScanOrder

/-! Property theorems C95: order and batching of scans in occupancy maps. -/

namespace Ndt
open St

section
variable {K : Type} [Field K] [LinearOrder K] [IsStrictOrderedRing K] [FloorRing K] {d : Nat}

section generic
variable {W E : Type} [AddCommMonoid W]

omit [IsStrictOrderedRing K] in
theorem occInserts_eq {B : Backend d} (L : B.Lawful) (fl : Flavour K d W E) (g : Geo K d) (dyn : Bool) (defRay : Pt K d → Pt K d → List (Idx d)) (exp : Occ W E → Bool) :
    ∀ (l : List (Scan K d W)) (st : St B (Occ W E)), RInv L dyn st →
    occRun fl g dyn defRay exp (l.map .insert) st = occAdd dyn (l.flatMap (insertEffects fl g (st.valid dyn))) st
  | [], st, _ => rfl
  | s :: l, st, hI => by
    rw [List.flatMap_cons, occAdd_append]
    show (occInsert fl g dyn s st).bind _ = _
    rw [occInsert_eq L fl g dyn s st hI]
    cases h : occAdd dyn (insertEffects fl g (st.valid dyn) s) st with
    | none => rfl
    | some st1 =>
      obtain ⟨a1, a2, _⟩ := occAdd_spec L dyn _ st st1 hI h
      have hv : st1.valid dyn = st.valid dyn := funext a2.valid
      rw [Option.bind_some, Option.bind_some, occInserts_eq L fl g dyn defRay exp l st1 a1, hv]

omit [IsStrictOrderedRing K] in
theorem mem_addRay_keys (ok : Idx d → Bool) (n : W) : ∀ (cells : List (Idx d)) (free : List (Idx d × W)) (b : Idx d),
    b ∈ (addRay ok n cells free).map Prod.fst ↔ b ∈ free.map Prod.fst ∨ (ok b = true ∧ b ∈ cells)
  | [], free, b => by simp [addRay]
  | x :: l, free, b => by
    have e : addRay ok n (x :: l) free = addRay ok n l (if ok x then upsert 0 (fun w => w + n) x free else free) := rfl
    rw [e, mem_addRay_keys ok n l]
    by_cases hx : ok x = true
    · rw [if_pos hx, mem_upsert_keys, List.mem_cons]
      constructor
      · rintro ((rfl | h) | h)
        · exact Or.inr ⟨hx, Or.inl rfl⟩
        · exact Or.inl h
        · exact Or.inr ⟨h.1, Or.inr h.2⟩
      · rintro (h | ⟨h, rfl | h'⟩)
        · exact Or.inl (Or.inr h)
        · exact Or.inl (Or.inl rfl)
        · exact Or.inr ⟨h, h'⟩
    · rw [if_neg hx, List.mem_cons]
      constructor
      · rintro (h | h)
        · exact Or.inl h
        · exact Or.inr ⟨h.1, Or.inr h.2⟩
      · rintro (h | ⟨h, rfl | h'⟩)
        · exact Or.inl h
        · exact absurd h hx
        · exact Or.inr ⟨h, h'⟩

omit [IsStrictOrderedRing K] in
theorem mem_rayFree_keys (fl : Flavour K d W E) (ok : Idx d → Bool) (ray : Pt K d → Pt K d → List (Idx d)) (start : Pt K d) :
    ∀ (updates : List (Idx d × Multiset E)) (free : List (Idx d × W)) (b : Idx d),
    b ∈ (rayFree fl ok ray start updates free).map Prod.fst ↔ b ∈ free.map Prod.fst ∨ (ok b = true ∧ ∃ e ∈ updates, b ∈ ray start (fl.mean e.2))
  | [], free, b => by simp [rayFree]
  | e :: l, free, b => by
    have h : rayFree fl ok ray start (e :: l) free = rayFree fl ok ray start l (addRay ok (fl.amount e.2) (ray start (fl.mean e.2)) free) := rfl
    rw [h, mem_rayFree_keys fl ok ray start l, mem_addRay_keys]
    simp only [List.mem_cons, exists_eq_or_imp]
    tauto

/-- the bundles an insertion touches -/
theorem mem_insertEffects (fl : Flavour K d W E) (hmean : ∀ s : Multiset (Pt K d), fl.mean (s.map fl.sample) = Spec.meanOf s) (g : Geo K d) (hr : 0 < g.r) (k : Kind d)
    (s : Scan K d W) (b : Idx d) : b ∈ (insertEffects fl g ((k.init (Occ W E)).abs.valid k.dyn) s).map Prod.fst ↔ Spec.Touches g k s b := by
  set ok := (k.init (Occ W E)).abs.valid k.dyn with hok
  have hkeys : (occCollect fl g ok s.pose s.cloud).map Prod.fst = (collect g ok s.pose (s.cloud.filter fun p => g.normal p)).map Prod.fst := by
    unfold occCollect; rw [List.map_map]; rfl
  have hhit : ∀ b, b ∈ (occCollect fl g ok s.pose s.cloud).map Prod.fst ↔ b ∈ Spec.hitBundles g k s := by
    intro b; rw [hkeys, mem_hitBundles (Occ W E) g hr]
  have hfree : b ∈ (rayFree fl ok s.ray (rayStart g s.pose) (occCollect fl g ok s.pose s.cloud) []).map Prod.fst ↔
      (Spec.ValidBundle k b ∧ ∃ e ∈ Spec.hitBundles g k s, b ∈ Spec.rayOf g k s e) := by
    rw [mem_rayFree_keys, ← validBundle_iff (Occ W E)]
    simp only [List.map_nil, List.not_mem_nil, false_or]
    refine and_congr Iff.rfl ?_
    have hv : ∀ e ∈ collect g ok s.pose (s.cloud.filter fun p => g.normal p), s.ray (rayStart g s.pose) (fl.mean (e.2.map fl.sample)) = Spec.rayOf g k s e.1 := by
      intro e he
      rw [hmean, (collect_value g _ s.pose _ e he).trans (hitsIn_eq (Occ W E) g hr k s e.1)]; rfl
    constructor
    · rintro ⟨e, he, h⟩
      obtain ⟨x, hx, rfl⟩ := List.mem_map.1 he
      refine ⟨x.1, (hhit _).1 (hkeys ▸ List.mem_map.2 ⟨x, hx, rfl⟩), ?_⟩
      rw [← hv x hx]; exact h
    · rintro ⟨e, he, h⟩
      have he' := (hhit e).2 he
      rw [hkeys] at he'
      obtain ⟨x, hx, rfl⟩ := List.mem_map.1 he'
      refine ⟨_, List.mem_map.2 ⟨x, hx, rfl⟩, ?_⟩
      rw [← hv x hx] at h; exact h
  have hmiss : b ∈ (insertFree fl g ok fl.eraseHits s).map Prod.fst ↔
      b ∈ (rayFree fl ok s.ray (rayStart g s.pose) (occCollect fl g ok s.pose s.cloud) []).map Prod.fst ∧ (fl.eraseHits = true → b ∉ Spec.hitBundles g k s) := by
    unfold insertFree
    rw [((s.order_perm _).map Prod.fst).mem_iff]
    simp only
    cases fl.eraseHits with
    | false => simp
    | true =>
      simp only [if_true, forall_const]
      unfold eraseKeys
      simp only [List.mem_map, List.mem_filter]
      constructor
      · rintro ⟨a, ⟨h1, h2⟩, rfl⟩
        refine ⟨⟨a, h1, rfl⟩, fun h => ?_⟩
        rw [← hhit] at h
        simp [List.contains_eq_mem] at h2
        obtain ⟨y, hy, e⟩ := List.mem_map.1 h
        exact h2 y.2 (e ▸ hy)
      · rintro ⟨⟨a, h1, rfl⟩, h2⟩
        refine ⟨a, ⟨h1, ?_⟩, rfl⟩
        rw [← hhit] at h2
        rw [List.contains_eq_mem, Bool.not_eq_true', decide_eq_false_iff_not]
        exact h2
  have h1 : (insertEffects fl g ok s).map Prod.fst = (occCollect fl g ok s.pose s.cloud).map Prod.fst ++ (insertFree fl g ok fl.eraseHits s).map Prod.fst := by
    unfold insertEffects
    rw [List.map_append, List.map_map, List.map_map]; rfl
  rw [h1, List.mem_append, hhit, hmiss, hfree]
  unfold Spec.Touches
  tauto

/-- the sum over the contributions of several scans -/
theorem flatMap_sum {A : Type} [AddCommMonoid A] (f : Occ W E →+ A) (F : Scan K d W → List (Idx d × Occ W E)) (P : Idx d × Occ W E → Bool) : ∀ l : List (Scan K d W),
    f (((l.flatMap F).filter P).map Prod.snd).sum = (l.map fun s => f (((F s).filter P).map Prod.snd).sum).sum
  | [] => by simp
  | s :: l => by
    rw [List.flatMap_cons, List.filter_append, List.map_append, List.sum_append, map_add, flatMap_sum f F P l, List.map_cons, List.sum_cons]

omit [Field K] [LinearOrder K] [IsStrictOrderedRing K] [FloorRing K] in
theorem Occ.ext_of_samples {o p : Occ W E} (hf : o.free = p.free) (hs : o.samples = p.samples) (ho : o.data ≠ some 0) (hp : p.data ≠ some 0) : o = p := by
  obtain ⟨f, x⟩ := o
  obtain ⟨f', y⟩ := p
  simp only [Occ.samples] at hf hs ho hp
  subst hf
  congr 1
  cases x with
  | none =>
    cases y with
    | none => rfl
    | some y => simp at hs; subst hs; exact absurd rfl hp
  | some x =>
    cases y with
    | none => simp at hs; subst hs; exact absurd rfl ho
    | some y => simp at hs; subst hs; rfl

theorem scans_same (fl : Flavour K d W E) (hmean : ∀ s : Multiset (Pt K d), fl.mean (s.map fl.sample) = Spec.meanOf s) (one : W)
    (hone : ∀ s : Multiset (Pt K d), fl.amount (s.map fl.sample) = s.card • one) (k : Kind d) (g : Geo K d) (hr : 0 < g.r)
    (defRay : Pt K d → Pt K d → List (Idx d)) (exp : Occ W E → Bool) (st : St k.backend (Occ W E)) (hst : OccReachable fl k g defRay exp st)
    (l l' : List (Scan K d W)) (hh : (l.map (Spec.hits g k)).sum = (l'.map (Spec.hits g k)).sum)
    (hm : ∀ c < 2 ^ d, ∀ i, (l.map fun s => Spec.misses fl.eraseHits g k s c i).sum = (l'.map fun s => Spec.misses fl.eraseHits g k s c i).sum)
    (ht : ∀ b, (∃ s ∈ l, Spec.Touches g k s b) ↔ ∃ s ∈ l', Spec.Touches g k s b)
    (t : St k.backend (Occ W E)) (h : occRun fl g k.dyn defRay exp (l.map .insert) st = some t) :
    ∃ t', occRun fl g k.dyn defRay exp (l'.map .insert) st = some t' ∧ SameMap t t' := by
  classical
  have hI := hst.rinv
  have hv : st.valid k.dyn = (k.init (Occ W E)).abs.valid k.dyn := funext hst.keeps.valid
  rw [occInserts_eq k.lawful fl g k.dyn defRay exp l st hI, hv] at h
  rw [occInserts_eq k.lawful fl g k.dyn defRay exp l' st hI, hv]
  set F := insertEffects fl g ((k.init (Occ W E)).abs.valid k.dyn) with hF
  have hkey : ∀ (m : List (Scan K d W)) (b : Idx d), b ∈ (m.flatMap F).map Prod.fst ↔ ∃ s ∈ m, Spec.Touches g k s b := by
    intro m b
    simp only [List.map_flatMap, List.mem_flatMap]
    exact exists_congr fun s => and_congr_right fun _ => mem_insertEffects fl hmean g hr k s b
  have hkeys : ∀ b, b ∈ (l.flatMap F).map Prod.fst ↔ b ∈ (l'.flatMap F).map Prod.fst := fun b => by rw [hkey, hkey, ht]
  have hne : ∀ (m : List (Scan K d W)) (P : Idx d × Occ W E → Bool), (((m.flatMap F).filter P).map Prod.snd).sum.data ≠ some 0 := by
    intro m P
    refine Occ.data_sum_ne _ fun o ho => ?_
    obtain ⟨e, he, rfl⟩ := List.mem_map.1 ho
    obtain ⟨s, _, hs⟩ := List.mem_flatMap.1 (List.mem_filter.1 he).1
    rcases List.mem_append.1 hs with hs | hs
    · exact hits_ne fl g _ s _ (List.Sublist.refl _) e hs
    · exact misses_ne _ e hs
  have hfree : ∀ (m : List (Scan K d W)) (c : Nat) (i : Idx d), (((m.flatMap F).filter (fun e => decide (generateIndex e.1 c = i))).map Prod.snd).sum.free =
      (m.map fun s => Spec.misses fl.eraseHits g k s c i).sum • one := by
    intro m c i
    refine (flatMap_sum Occ.freeHom F _ m).trans ?_
    induction m with
    | nil => simp
    | cons s m ih =>
      rw [List.map_cons, List.sum_cons, ih, List.map_cons, List.sum_cons, add_nsmul]
      refine congrArg (· + _) ?_
      refine (insertEffects_misses fl hmean g hr k s c i).trans ?_
      unfold Spec.misses
      rw [← Finset.sum_nsmul_assoc]
      refine Finset.sum_congr rfl fun b _ => ?_
      rw [hone, mul_nsmul']
  have hsamp : ∀ (m : List (Scan K d W)) (c : Nat) (i : Idx d), (((m.flatMap F).filter (fun e => decide (generateIndex e.1 c = i))).map Prod.snd).sum.samples =
      (((m.map (Spec.hits g k)).sum).filter (Spec.InCell g.r c i)).map fl.sample := by
    intro m c i
    refine (flatMap_sum Occ.samplesHom F _ m).trans ?_
    induction m with
    | nil => rfl
    | cons s m ih =>
      rw [List.map_cons, List.sum_cons, ih, List.map_cons, List.sum_cons, Multiset.filter_add, Multiset.map_add]
      refine congrArg (· + _) ?_
      refine (insertEffects_samples fl g _ s (fun b => decide (generateIndex b c = i))).trans ?_
      refine congrArg (Multiset.map fl.sample) ?_
      unfold Spec.hits
      rw [← accList_eq (Occ W E) g hr k, Multiset.filter_coe]
      refine congrArg _ (List.filter_congr fun p _ => ?_)
      rw [Bool.eq_iff_iff, decide_eq_true_iff, decide_eq_true_iff]
      exact C01_point_in_selected_cell hr p c i
  obtain ⟨a1, a2, a3, a4, a5⟩ := occAdd_spec k.lawful k.dyn _ st t hI h
  have hgood : ∀ e ∈ l'.flatMap F, st.abs.Good e.1 := by
    intro e he
    obtain ⟨x, hx, e'⟩ := List.mem_map.1 ((hkeys e.1).2 (List.mem_map.2 ⟨e, he, rfl⟩))
    rw [← e']; exact a5 x hx
  obtain ⟨t', ht'⟩ := occAdd_total k.lawful k.dyn _ st hI hgood
  obtain ⟨b1, b2, b3, b4, _⟩ := occAdd_spec k.lawful k.dyn _ st t' hI ht'
  refine ⟨t', ht', SameMap.of_abs ?_⟩
  refine Abs.ext_of_ainv a1.ainv b1.ainv ?_ ?_ (a2.okB.trans b2.okB.symm) (a2.okD.trans b2.okD.symm) ?_
  · funext bj
    rw [a4, b4]
    by_cases x : bj ∈ (l.flatMap F).map Prod.fst
    · rw [if_pos x, if_pos ((hkeys bj).1 x)]
    · rw [if_neg x, if_neg (fun y => x ((hkeys bj).2 y))]
  · intro c hc i
    rw [a3 c hc i, b3 c hc i]
    refine congrArg (_ + ·) (Occ.ext_of_samples ?_ ?_ (hne _ _) (hne _ _))
    · rw [hfree, hfree, hm c hc i]
    · rw [hsamp, hsamp, hh]
  · intro hd
    exact ⟨(a2.static hd).1.trans (b2.static hd).1.symm, (a2.static hd).2.trans (b2.static hd).2.symm⟩

/-! ### pieces of a scan -/

omit [IsStrictOrderedRing K] [FloorRing K] in
theorem acceptedPoints_append (g : Geo K d) (k : Kind d) (pose : Pt K d → Pt K d) (l l' : List (Pt K d)) :
    Spec.acceptedPoints g k pose (l ++ l') = Spec.acceptedPoints g k pose l + Spec.acceptedPoints g k pose l' := by
  simp only [Spec.acceptedPoints, List.map_append, List.filter_append, ← Multiset.coe_add, Multiset.filter_add]

omit [IsStrictOrderedRing K] [FloorRing K] in
theorem acceptedPoints_perm (g : Geo K d) (k : Kind d) (pose : Pt K d → Pt K d) (l l' : List (Pt K d)) (h : l.Perm l') :
    Spec.acceptedPoints g k pose l = Spec.acceptedPoints g k pose l' := by
  unfold Spec.acceptedPoints
  congr 1
  rw [Multiset.coe_eq_coe]
  exact ((h.map pose).filter _).map _

omit [IsStrictOrderedRing K] in
theorem pieces_hits {g : Geo K d} {k : Kind d} {whole : Scan K d W} {parts : List (Scan K d W)} (h : Spec.Pieces whole parts) :
    (parts.map (Spec.hits g k)).sum = Spec.hits g k whole := by
  have e : (parts.map (Spec.hits g k)).sum = Spec.acceptedPoints g k whole.pose ((parts.map Scan.cloud).flatten.filter fun p => g.normal p) := by
    have hp := h.pose
    clear h
    induction parts with
    | nil => simp [Spec.acceptedPoints]
    | cons s l ih =>
      rw [List.map_cons, List.sum_cons, ih (fun s hs => hp s (List.mem_cons_of_mem _ hs)), List.map_cons, List.flatten_cons, List.filter_append, acceptedPoints_append]
      unfold Spec.hits
      rw [hp s (List.mem_cons_self ..)]
  rw [e]
  exact acceptedPoints_perm g k _ _ _ (h.cloud.filter _)

omit [IsStrictOrderedRing K] in
theorem pieces_hitsIn {g : Geo K d} {k : Kind d} {whole : Scan K d W} {parts : List (Scan K d W)} (h : Spec.Pieces whole parts) (b : Idx d) :
    (parts.map fun s => Spec.hitsIn g k s b).sum = Spec.hitsIn g k whole b := by
  classical
  unfold Spec.hitsIn
  rw [← pieces_hits h]
  generalize parts = l
  induction l with
  | nil => simp
  | cons s l ih => rw [List.map_cons, List.sum_cons, ih, List.map_cons, List.sum_cons, Multiset.filter_add]

omit [IsStrictOrderedRing K] in
theorem pieces_hitBundles {g : Geo K d} {k : Kind d} {whole : Scan K d W} {parts : List (Scan K d W)} (h : Spec.Pieces whole parts) (b : Idx d) :
    b ∈ Spec.hitBundles g k whole ↔ ∃ s ∈ parts, b ∈ Spec.hitBundles g k s := by
  unfold Spec.hitBundles
  rw [← pieces_hits h]
  simp only [Multiset.mem_toFinset, Multiset.mem_map]
  generalize parts = l
  induction l with
  | nil => simp
  | cons s l ih =>
    rw [List.map_cons, List.sum_cons]
    simp only [Multiset.mem_add, List.mem_cons, or_and_right, exists_or, exists_eq_left]
    exact or_congr Iff.rfl ih

theorem mem_hitBundles_iff (g : Geo K d) (hr : 0 < g.r) (k : Kind d) (s : Scan K d W) (b : Idx d) : b ∈ Spec.hitBundles g k s ↔ Spec.hitsIn g k s b ≠ 0 := by
  classical
  unfold Spec.hitBundles Spec.hitsIn
  rw [Multiset.mem_toFinset, Multiset.mem_map, Ne, Multiset.filter_eq_nil]
  simp only [floor_bundle, not_forall, not_not]
  exact exists_congr fun p => by rw [C01_bundle_contains_point hr p b, exists_prop]

theorem pieces_disjoint {g : Geo K d} (hr : 0 < g.r) {k : Kind d} {whole : Scan K d W} {parts : List (Scan K d W)} (h : Spec.Pieces whole parts)
    (hdis : parts.Pairwise fun s s' => Disjoint (Spec.hitBundles g k s) (Spec.hitBundles g k s')) (s : Scan K d W) (hs : s ∈ parts) (b : Idx d) (hb : b ∈ Spec.hitBundles g k s) :
    Spec.hitsIn g k s b = Spec.hitsIn g k whole b := by
  rw [← pieces_hitsIn h b]
  clear h
  have hz : ∀ l : List (Scan K d W), (∀ s' ∈ l, b ∉ Spec.hitBundles g k s') → (l.map fun s => Spec.hitsIn g k s b).sum = 0 := by
    intro l hl
    refine List.sum_eq_zero fun x hx => ?_
    obtain ⟨s', hs', rfl⟩ := List.mem_map.1 hx
    have := hl s' hs'
    rwa [mem_hitBundles_iff g hr, not_not] at this
  induction parts with
  | nil => cases hs
  | cons x l ih =>
    rw [List.pairwise_cons] at hdis
    rw [List.map_cons, List.sum_cons]
    rcases List.mem_cons.1 hs with rfl | hs'
    · rw [hz l fun s' hs' hb' => Finset.disjoint_left.1 (hdis.1 s' hs') hb hb', add_zero]
    · have hx : b ∉ Spec.hitBundles g k x := fun hb' => Finset.disjoint_left.1 (hdis.1 s hs') hb' hb
      rw [mem_hitBundles_iff g hr, not_not] at hx
      rw [hx, zero_add]
      exact ih hdis.2 hs'

/-- splitting a scan whose rays do not change -/
theorem split_same (fl : Flavour K d W E) (hmean : ∀ s : Multiset (Pt K d), fl.mean (s.map fl.sample) = Spec.meanOf s) (one : W)
    (hone : ∀ s : Multiset (Pt K d), fl.amount (s.map fl.sample) = s.card • one) (k : Kind d) (g : Geo K d) (hr : 0 < g.r)
    (defRay : Pt K d → Pt K d → List (Idx d)) (exp : Occ W E → Bool) (st : St k.backend (Occ W E)) (hst : OccReachable fl k g defRay exp st)
    (whole : Scan K d W) (parts : List (Scan K d W)) (hp : Spec.Pieces whole parts)
    (hray : ∀ s ∈ parts, ∀ b ∈ Spec.hitBundles g k s, Spec.rayOf g k s b = Spec.rayOf g k whole b)
    (hskip : fl.eraseHits = true → ∀ s ∈ parts, ∀ b ∈ Spec.hitBundles g k s, ∀ x ∈ Spec.rayOf g k whole b, x ∈ Spec.hitBundles g k whole → x ∈ Spec.hitBundles g k s)
    (t : St k.backend (Occ W E)) (h : occInsert fl g k.dyn whole st = some t) :
    ∃ t', occRun fl g k.dyn defRay exp (parts.map .insert) st = some t' ∧ SameMap t t' := by
  classical
  refine scans_same fl hmean one hone k g hr defRay exp st hst [whole] parts ?_ ?_ ?_ t ?_
  · rw [pieces_hits hp]; simp
  · intro c _ i
    rw [List.map_cons, List.map_nil, List.sum_cons, List.sum_nil, add_zero]
    have e : ∀ s ∈ parts, Spec.misses fl.eraseHits g k s c i = ∑ b ∈ Spec.hitBundles g k whole, ((Spec.rayOf g k whole b).filter fun x => decide (Spec.ValidBundle k x ∧
        Spec.BundleInCell g.r x c i ∧ (fl.eraseHits = true → x ∉ Spec.hitBundles g k whole))).length * (Spec.hitsIn g k s b).card := by
      intro s hs
      have hsub : Spec.hitBundles g k s ⊆ Spec.hitBundles g k whole := fun b hb => (pieces_hitBundles hp b).2 ⟨s, hs, hb⟩
      rw [← Finset.sum_subset hsub]
      · unfold Spec.misses
        refine Finset.sum_congr rfl fun b hb => ?_
        rw [hray s hs b hb]
        congr 2
        refine List.filter_congr fun x hx => decide_eq_decide.2 ?_
        refine and_congr Iff.rfl (and_congr Iff.rfl (forall_congr' fun he => not_congr ?_))
        exact ⟨fun y => hsub y, fun y => hskip he s hs b hb x hx y⟩
      · intro b _ hb
        rw [mem_hitBundles_iff g hr, not_not] at hb
        rw [hb]; simp
    rw [List.map_congr_left e]
    unfold Spec.misses
    have e2 : ∀ b, (Spec.hitsIn g k whole b).card = (parts.map fun s => (Spec.hitsIn g k s b).card).sum := by
      intro b
      rw [← pieces_hitsIn hp b]
      refine (map_list_sum Multiset.cardHom _).trans ?_
      rw [List.map_map]; rfl
    simp only [e2]
    clear e e2 h hskip hray hp
    induction parts with
    | nil => simp
    | cons s l ih =>
      simp only [List.map_cons, List.sum_cons, mul_add, Finset.sum_add_distrib]
      rw [ih]
  · intro b
    simp only [List.mem_singleton, exists_eq_left]
    unfold Spec.Touches
    rw [pieces_hitBundles hp b]
    constructor
    · rintro (⟨s, hs, hb⟩ | ⟨hv, e, he, hb⟩)
      · exact ⟨s, hs, Or.inl hb⟩
      · obtain ⟨s, hs, he'⟩ := (pieces_hitBundles hp e).1 he
        exact ⟨s, hs, Or.inr ⟨hv, e, he', by rw [hray s hs e he']; exact hb⟩⟩
    · rintro ⟨s, hs, hb | ⟨hv, e, he, hb⟩⟩
      · exact Or.inl ⟨s, hs, hb⟩
      · exact Or.inr ⟨hv, e, (pieces_hitBundles hp e).2 ⟨s, hs, he⟩, by rw [← hray s hs e he]; exact hb⟩
  · simp only [List.map_cons, List.map_nil, occRun, occStep, h, Option.bind_some]

/-- the mean of points in a bundle is in the bundle -/
theorem meanOf_inBundle (r : K) (b : Idx d) (s : Multiset (Pt K d)) (hs : s ≠ 0) (h : ∀ p ∈ s, Spec.InBundle r b p) : Spec.InBundle r b (Spec.meanOf s) := by
  intro a
  have hc : (0 : K) < s.card := by exact_mod_cast Multiset.card_pos.2 hs
  unfold Spec.meanOf
  rw [le_div_iff₀ hc, div_lt_iff₀ hc]
  have hlo : ∀ s : Multiset (Pt K d), (∀ p ∈ s, Spec.InBundle r b p) → ((b a : K) * (r / 2)) * s.card ≤ (s.map fun p => p a).sum := by
    intro s
    induction s using Multiset.induction with
    | empty => intro; simp
    | cons p s ih =>
      intro h
      have := ih fun q hq => h q (Multiset.mem_cons_of_mem hq)
      have hp := (h p (Multiset.mem_cons_self ..) a).1
      rw [Multiset.map_cons, Multiset.sum_cons, Multiset.card_cons]; push_cast; linarith
  have hhi : ∀ s : Multiset (Pt K d), s ≠ 0 → (∀ p ∈ s, Spec.InBundle r b p) → (s.map fun p => p a).sum < (((b a : K) + 1) * (r / 2)) * s.card := by
    intro s
    induction s using Multiset.induction with
    | empty => intro h; exact absurd rfl h
    | cons p s ih =>
      intro _ h
      have hp := (h p (Multiset.mem_cons_self ..) a).2
      rw [Multiset.map_cons, Multiset.sum_cons, Multiset.card_cons]; push_cast
      by_cases e : s = 0
      · subst e; simpa using hp
      · have := ih e fun q hq => h q (Multiset.mem_cons_of_mem hq)
        linarith
  exact ⟨hlo s h, hhi s hs h⟩

end generic

/-! ### C95 -/

omit [LinearOrder K] [IsStrictOrderedRing K] [FloorRing K] in
theorem occFlavour_one (s : Multiset (Pt K d)) : (occFlavour K d).amount (s.map (occFlavour K d).sample) = s.card • (1 : Nat) := by
  simp [occFlavour]

omit [LinearOrder K] [IsStrictOrderedRing K] [FloorRing K] in
theorem weightedFlavour_one (s : Multiset (Pt K d)) : (weightedFlavour K d).amount (s.map (weightedFlavour K d).sample) = s.card • (1 : K) := by
  rw [weightedFlavour_amount]; simp

/-- **C95** (what matters, occupancy maps). From any reachable map, two sequences of `insert` calls with the same hits in total, the same misses in total for every distribution and the same
touched bundles have the same outcome, and the resulting maps are indistinguishable. -/
theorem C95_only_totals_matter (k : Kind d) (g : Geo K d) (hr : 0 < g.r) (defRay : Pt K d → Pt K d → List (Idx d)) (exp : Occ Nat (Pt K d) → Bool)
    (st : St k.backend (Occ Nat (Pt K d))) (hst : OccReachable (occFlavour K d) k g defRay exp st) (l l' : List (Scan K d Nat))
    (hh : (l.map (Spec.hits g k)).sum = (l'.map (Spec.hits g k)).sum)
    (hm : ∀ c < 2 ^ d, ∀ i, (l.map fun s => Spec.misses false g k s c i).sum = (l'.map fun s => Spec.misses false g k s c i).sum)
    (ht : ∀ b, (∃ s ∈ l, Spec.Touches g k s b) ↔ ∃ s ∈ l', Spec.Touches g k s b)
    (t : St k.backend (Occ Nat (Pt K d))) (h : occRun (occFlavour K d) g k.dyn defRay exp (l.map .insert) st = some t) :
    ∃ t', occRun (occFlavour K d) g k.dyn defRay exp (l'.map .insert) st = some t' ∧ SameMap t t' :=
  scans_same (occFlavour K d) occFlavour_mean 1 occFlavour_one k g hr defRay exp st hst l l' hh hm ht t h

/-- **C95** (what matters, weighted occupancy maps). -/
theorem C95_only_totals_matter_weighted (k : Kind d) (g : Geo K d) (hr : 0 < g.r) (defRay : Pt K d → Pt K d → List (Idx d)) (exp : Occ K (Pt K d × K) → Bool)
    (st : St k.backend (Occ K (Pt K d × K))) (hst : OccReachable (weightedFlavour K d) k g defRay exp st) (l l' : List (Scan K d K))
    (hh : (l.map (Spec.hits g k)).sum = (l'.map (Spec.hits g k)).sum)
    (hm : ∀ c < 2 ^ d, ∀ i, (l.map fun s => Spec.misses true g k s c i).sum = (l'.map fun s => Spec.misses true g k s c i).sum)
    (ht : ∀ b, (∃ s ∈ l, Spec.Touches g k s b) ↔ ∃ s ∈ l', Spec.Touches g k s b)
    (t : St k.backend (Occ K (Pt K d × K))) (h : occRun (weightedFlavour K d) g k.dyn defRay exp (l.map .insert) st = some t) :
    ∃ t', occRun (weightedFlavour K d) g k.dyn defRay exp (l'.map .insert) st = some t' ∧ SameMap t t' :=
  scans_same (weightedFlavour K d) weightedFlavour_mean 1 weightedFlavour_one k g hr defRay exp st hst l l' hh hm ht t h

/-- **C95** (order). From any reachable map of either class, the same scans in any order have the same outcome, and the resulting maps are indistinguishable. -/
theorem C95_scan_order (k : Kind d) (g : Geo K d) (hr : 0 < g.r) (defRay : Pt K d → Pt K d → List (Idx d)) :
    (∀ (exp : Occ Nat (Pt K d) → Bool) (st : St k.backend (Occ Nat (Pt K d))), OccReachable (occFlavour K d) k g defRay exp st → ∀ l l' : List (Scan K d Nat), l.Perm l' →
      ∀ t, occRun (occFlavour K d) g k.dyn defRay exp (l.map .insert) st = some t →
      ∃ t', occRun (occFlavour K d) g k.dyn defRay exp (l'.map .insert) st = some t' ∧ SameMap t t') ∧
    (∀ (exp : Occ K (Pt K d × K) → Bool) (st : St k.backend (Occ K (Pt K d × K))), OccReachable (weightedFlavour K d) k g defRay exp st → ∀ l l' : List (Scan K d K), l.Perm l' →
      ∀ t, occRun (weightedFlavour K d) g k.dyn defRay exp (l.map .insert) st = some t →
      ∃ t', occRun (weightedFlavour K d) g k.dyn defRay exp (l'.map .insert) st = some t' ∧ SameMap t t') :=
  ⟨fun exp st hst l l' hl t h => C95_only_totals_matter k g hr defRay exp st hst l l' (hl.map _).sum_eq (fun _ _ _ => (hl.map _).sum_eq)
      (fun _ => exists_congr fun _ => and_congr_left fun _ => hl.mem_iff) t h,
    fun exp st hst l l' hl t h => C95_only_totals_matter_weighted k g hr defRay exp st hst l l' (hl.map _).sum_eq (fun _ _ _ => (hl.map _).sum_eq)
      (fun _ => exists_congr fun _ => and_congr_left fun _ => hl.mem_iff) t h⟩

/-- **C95, partial** (pieces, occupancy maps). If every piece traces the rays that the whole scan traces to its hit bundles, then inserting the pieces one after the other and inserting the whole scan lead to
indistinguishable maps. -/
theorem C95_pieces_partial (k : Kind d) (g : Geo K d) (hr : 0 < g.r) (defRay : Pt K d → Pt K d → List (Idx d)) (exp : Occ Nat (Pt K d) → Bool)
    (st : St k.backend (Occ Nat (Pt K d))) (hst : OccReachable (occFlavour K d) k g defRay exp st) (whole : Scan K d Nat) (parts : List (Scan K d Nat)) (hp : Spec.Pieces whole parts)
    (hray : ∀ s ∈ parts, ∀ b ∈ Spec.hitBundles g k s, Spec.rayOf g k s b = Spec.rayOf g k whole b)
    (t : St k.backend (Occ Nat (Pt K d))) (h : occInsert (occFlavour K d) g k.dyn whole st = some t) :
    ∃ t', occRun (occFlavour K d) g k.dyn defRay exp (parts.map .insert) st = some t' ∧ SameMap t t' :=
  split_same (occFlavour K d) occFlavour_mean 1 occFlavour_one k g hr defRay exp st hst whole parts hp hray (fun h => by cases h) t h

/-- **C95, partial** (any pieces, occupancy maps). If the ray tracer sees its end point only through the bundle that contains it, then any partition of a cloud into pieces leads to an
indistinguishable map. -/
theorem C95_any_pieces_partial (k : Kind d) (g : Geo K d) (hr : 0 < g.r) (defRay : Pt K d → Pt K d → List (Idx d)) (exp : Occ Nat (Pt K d) → Bool)
    (st : St k.backend (Occ Nat (Pt K d))) (hst : OccReachable (occFlavour K d) k g defRay exp st) (whole : Scan K d Nat) (parts : List (Scan K d Nat)) (hp : Spec.Pieces whole parts)
    (hray : ∀ o p q b, Spec.InBundle g.r b p → Spec.InBundle g.r b q → whole.ray o p = whole.ray o q)
    (t : St k.backend (Occ Nat (Pt K d))) (h : occInsert (occFlavour K d) g k.dyn whole st = some t) :
    ∃ t', occRun (occFlavour K d) g k.dyn defRay exp (parts.map .insert) st = some t' ∧ SameMap t t' := by
  classical
  refine C95_pieces_partial k g hr defRay exp st hst whole parts hp (fun s hs b hb => ?_) t h
  have hin : ∀ s : Scan K d Nat, b ∈ Spec.hitBundles g k s → Spec.InBundle g.r b (Spec.meanOf (Spec.hitsIn g k s b)) := fun s hb =>
    meanOf_inBundle g.r b _ ((mem_hitBundles_iff g hr k s b).1 hb) fun p hp => (Multiset.mem_filter.1 hp).2
  unfold Spec.rayOf
  rw [hp.pose s hs, hp.ray s hs]
  exact hray _ _ _ b (hin s hb) (hin whole ((pieces_hitBundles hp b).2 ⟨s, hs, hb⟩))

/-- **C95, partial** (pieces without common bundles, occupancy maps). If no two pieces have hits in the same bundle, then inserting them one after the other and inserting the whole scan lead to
indistinguishable maps, with any ray tracer. -/
theorem C95_disjoint_pieces_partial (k : Kind d) (g : Geo K d) (hr : 0 < g.r) (defRay : Pt K d → Pt K d → List (Idx d)) (exp : Occ Nat (Pt K d) → Bool)
    (st : St k.backend (Occ Nat (Pt K d))) (hst : OccReachable (occFlavour K d) k g defRay exp st) (whole : Scan K d Nat) (parts : List (Scan K d Nat)) (hp : Spec.Pieces whole parts)
    (hdis : parts.Pairwise fun s s' => Disjoint (Spec.hitBundles g k s) (Spec.hitBundles g k s'))
    (t : St k.backend (Occ Nat (Pt K d))) (h : occInsert (occFlavour K d) g k.dyn whole st = some t) :
    ∃ t', occRun (occFlavour K d) g k.dyn defRay exp (parts.map .insert) st = some t' ∧ SameMap t t' := by
  refine C95_pieces_partial k g hr defRay exp st hst whole parts hp (fun s hs b hb => ?_) t h
  unfold Spec.rayOf
  rw [hp.pose s hs, hp.ray s hs, pieces_disjoint hr hp hdis s hs b hb]

/-- **C95, partial** (pieces, weighted occupancy maps). The pieces have to trace the rays of the whole scan, and no ray of a piece may pass through a bundle that only another piece hits. -/
theorem C95_pieces_weighted_partial (k : Kind d) (g : Geo K d) (hr : 0 < g.r) (defRay : Pt K d → Pt K d → List (Idx d)) (exp : Occ K (Pt K d × K) → Bool)
    (st : St k.backend (Occ K (Pt K d × K))) (hst : OccReachable (weightedFlavour K d) k g defRay exp st) (whole : Scan K d K) (parts : List (Scan K d K)) (hp : Spec.Pieces whole parts)
    (hray : ∀ s ∈ parts, ∀ b ∈ Spec.hitBundles g k s, Spec.rayOf g k s b = Spec.rayOf g k whole b)
    (hskip : ∀ s ∈ parts, ∀ b ∈ Spec.hitBundles g k s, ∀ x ∈ Spec.rayOf g k whole b, x ∈ Spec.hitBundles g k whole → x ∈ Spec.hitBundles g k s)
    (t : St k.backend (Occ K (Pt K d × K))) (h : occInsert (weightedFlavour K d) g k.dyn whole st = some t) :
    ∃ t', occRun (weightedFlavour K d) g k.dyn defRay exp (parts.map .insert) st = some t' ∧ SameMap t t' :=
  split_same (weightedFlavour K d) weightedFlavour_mean 1 weightedFlavour_one k g hr defRay exp st hst whole parts hp hray (fun _ => hskip) t h

/-- **C95** (histories). Two histories of `insert` calls, lookups, allocations and expansions with the same scans in any order give every distribution (absent = new) the same hits and the
same number of misses, whatever lookups are made in between. -/
theorem C95_history_order (k : Kind d) (g : Geo K d) (hr : 0 < g.r) (defRay : Pt K d → Pt K d → List (Idx d)) :
    (∀ (exp : Occ Nat (Pt K d) → Bool) (ops ops' : List (OccMapOp K d Nat (Pt K d))), (∀ op ∈ ops, op.Plain) → (∀ op ∈ ops', op.Plain) → (scansOf ops).Perm (scansOf ops') →
      ∀ st st', occRun (occFlavour K d) g k.dyn defRay exp ops (k.init _) = some st → occRun (occFlavour K d) g k.dyn defRay exp ops' (k.init _) = some st' →
      ∀ c, c < 2 ^ d → ∀ i, ((st.content c i).getD Occ.new).numFree = ((st'.content c i).getD Occ.new).numFree ∧
        ((st.content c i).getD Occ.new).samples = ((st'.content c i).getD Occ.new).samples) ∧
    (∀ (exp : Occ K (Pt K d × K) → Bool) (ops ops' : List (OccMapOp K d K (Pt K d × K))), (∀ op ∈ ops, op.Plain) → (∀ op ∈ ops', op.Plain) → (scansOf ops).Perm (scansOf ops') →
      ∀ st st', occRun (weightedFlavour K d) g k.dyn defRay exp ops (k.init _) = some st → occRun (weightedFlavour K d) g k.dyn defRay exp ops' (k.init _) = some st' →
      ∀ c, c < 2 ^ d → ∀ i, ((st.content c i).getD Occ.new).numFree = ((st'.content c i).getD Occ.new).numFree ∧
        ((st.content c i).getD Occ.new).samples = ((st'.content c i).getD Occ.new).samples) := by
  classical
  refine ⟨fun exp ops ops' hp hp' hperm st st' h h' c hc i => ?_, fun exp ops ops' hp hp' hperm st st' h h' c hc i => ?_⟩
  · obtain ⟨a1, a2, _⟩ := C27_occupancy_counts k g hr defRay exp ops hp st h c hc i
    obtain ⟨b1, b2, _⟩ := C27_occupancy_counts k g hr defRay exp ops' hp' st' h' c hc i
    rw [a1, a2, b1, b2, (hperm.map _).sum_eq, (hperm.map (Spec.hits g k)).sum_eq]
    exact ⟨rfl, rfl⟩
  · obtain ⟨a1, a2, _⟩ := C27_weighted_counts k g hr defRay exp ops hp st h c hc i
    obtain ⟨b1, b2, _⟩ := C27_weighted_counts k g hr defRay exp ops' hp' st' h' c hc i
    rw [a1, a2, b1, b2, (hperm.map _).sum_eq, (hperm.map (Spec.hits g k)).sum_eq]
    exact ⟨rfl, rfl⟩

end

/-! ### What does not hold -/

/-- a static map of 3 x 3 cells with its corner at the origin -/
def pieceKind : Kind 2 := .static ![3, 3] ![0, 0]

theorem piece_pieces (W : Type) (p q : Pt ℚ 2) (ray : Pt ℚ 2 → Pt ℚ 2 → List (Idx 2)) : Spec.Pieces (visScan W [p, q] ray) [visScan W [p] ray, visScan W [q] ray] where
  pose := by intro s hs; simp only [List.mem_cons, List.not_mem_nil, or_false] at hs; rcases hs with rfl | rfl <;> rfl
  ray := by intro s hs; simp only [List.mem_cons, List.not_mem_nil, or_false] at hs; rcases hs with rfl | rfl <;> rfl
  cloud := List.Perm.refl _

/-- a straight line from the origin to a point in bundle (2, 1) -/
def slopeRay (_ e : Pt ℚ 2) : List (Idx 2) :=
  if e 0 < 2 * e 1 then [![0, 0], ![1, 0], ![1, 1]] else [![0, 0], ![1, 0], ![2, 0]]

/-- two points in bundle (2, 1) -/
def pHigh : Pt ℚ 2 := ![21/10, 19/10]
def pLow : Pt ℚ 2 := ![29/10, 11/10]

def slopeWhole : Option (St pieceKind.backend (Occ Nat (Pt ℚ 2))) :=
  occInsert (occFlavour ℚ 2) unitGeo pieceKind.dyn (visScan Nat [pHigh, pLow] slopeRay) (pieceKind.init _)
def slopeParts : Option (St pieceKind.backend (Occ Nat (Pt ℚ 2))) :=
  occRun (occFlavour ℚ 2) unitGeo pieceKind.dyn slopeRay (fun _ => true) ([visScan Nat [pHigh] slopeRay, visScan Nat [pLow] slopeRay].map .insert) (pieceKind.init _)
theorem slopeWhole_runs : slopeWhole.isSome = true := by decide +kernel
theorem slopeParts_runs : slopeParts.isSome = true := by decide +kernel

/-- **C95 refuted** (pieces, occupancy maps). Two points of one bundle, with lines of sight through different bundles: inserted together there is one ray to their mean, inserted one after the other there are two rays, and a
distribution has a miss in one case and none in the other. -/
theorem C95_any_pieces_refuted : ∃ (k : Kind 2) (g : Geo ℚ 2) (ray : Pt ℚ 2 → Pt ℚ 2 → List (Idx 2)) (whole : Scan ℚ 2 Nat) (parts : List (Scan ℚ 2 Nat)) (t t' : St k.backend (Occ Nat (Pt ℚ 2)))
    (c : Nat) (i : Idx 2), 0 < g.r ∧ Spec.Pieces whole parts ∧ occInsert (occFlavour ℚ 2) g k.dyn whole (k.init _) = some t ∧
    occRun (occFlavour ℚ 2) g k.dyn ray (fun _ => true) (parts.map .insert) (k.init _) = some t' ∧ c < 2 ^ 2 ∧
    ((t.content c i).getD Occ.new).numFree = 0 ∧ ((t'.content c i).getD Occ.new).numFree = 1 :=
  ⟨pieceKind, unitGeo, slopeRay, _, _, slopeWhole.get slopeWhole_runs, slopeParts.get slopeParts_runs, 0, ![1, 0], by norm_num [unitGeo], piece_pieces Nat pHigh pLow slopeRay,
    (Option.some_get slopeWhole_runs).symm, (Option.some_get slopeParts_runs).symm, by norm_num, by decide +kernel, by decide +kernel⟩

def pieceWhole : Option (St pieceKind.backend (Occ ℚ (Pt ℚ 2 × ℚ))) :=
  occInsert (weightedFlavour ℚ 2) unitGeo pieceKind.dyn (visScan ℚ [pA, pB] xRay) (pieceKind.init _)
def pieceParts : Option (St pieceKind.backend (Occ ℚ (Pt ℚ 2 × ℚ))) :=
  occRun (weightedFlavour ℚ 2) unitGeo pieceKind.dyn xRay (fun _ => true) ([visScan ℚ [pA] xRay, visScan ℚ [pB] xRay].map .insert) (pieceKind.init _)
theorem pieceWhole_runs : pieceWhole.isSome = true := by decide +kernel
theorem pieceParts_runs : pieceParts.isSome = true := by decide +kernel

theorem piece_hits (W : Type) (cloud : List (Pt ℚ 2)) (ray : Pt ℚ 2 → Pt ℚ 2 → List (Idx 2)) (h : ∀ p ∈ cloud, p = pA ∨ p = pB) :
    Spec.hits unitGeo pieceKind (visScan W cloud ray) = cloud := by
  classical
  unfold Spec.hits Spec.acceptedPoints
  rw [Multiset.filter_eq_self.2]
  · simp [visScan, unitGeo]
  · intro p hp
    have hp' : p ∈ cloud := by simpa [visScan, unitGeo] using hp
    intro a
    rcases h p hp' with rfl | rfl <;> fin_cases a <;> norm_num [unitGeo, pA, pB]

theorem mem_piece_hitBundles (W : Type) (cloud : List (Pt ℚ 2)) (ray : Pt ℚ 2 → Pt ℚ 2 → List (Idx 2)) (h : ∀ p ∈ cloud, p = pA ∨ p = pB) (b : Idx 2) :
    b ∈ Spec.hitBundles unitGeo pieceKind (visScan W cloud ray) ↔ ∃ p ∈ cloud, toBundleIndex 2 p = b := by
  unfold Spec.hitBundles
  rw [piece_hits W cloud ray h, Multiset.mem_toFinset, Multiset.mem_map]
  simp only [Multiset.mem_coe, floor_bundle]
  rfl

theorem piece_disjoint (W : Type) (ray : Pt ℚ 2 → Pt ℚ 2 → List (Idx 2)) :
    [visScan W [pA] ray, visScan W [pB] ray].Pairwise fun s s' => Disjoint (Spec.hitBundles unitGeo pieceKind s) (Spec.hitBundles unitGeo pieceKind s') := by
  simp only [List.pairwise_cons, List.mem_singleton, forall_eq, List.not_mem_nil, IsEmpty.forall_iff, implies_true, List.Pairwise.nil, and_true]
  rw [Finset.disjoint_left]
  intro b hb hb'
  rw [mem_piece_hitBundles W _ _ (by simp)] at hb hb'
  obtain ⟨p, hp, rfl⟩ := hb
  obtain ⟨q, hq, e⟩ := hb'
  rw [List.mem_singleton.1 hp, List.mem_singleton.1 hq, tb_pA, tb_pB] at e
  exact absurd e (by decide)

/-- **C95 refuted** (pieces, weighted occupancy maps). Even for pieces without common bundles: a ray of the second piece passes through the bundle that the first piece hit. Inserted together the miss is dropped,
inserted one after the other it counts. -/
theorem C95_disjoint_pieces_weighted_refuted : ∃ (k : Kind 2) (g : Geo ℚ 2) (ray : Pt ℚ 2 → Pt ℚ 2 → List (Idx 2)) (whole : Scan ℚ 2 ℚ) (parts : List (Scan ℚ 2 ℚ))
    (t t' : St k.backend (Occ ℚ (Pt ℚ 2 × ℚ))) (c : Nat) (i : Idx 2), 0 < g.r ∧ Spec.Pieces whole parts ∧
    (parts.Pairwise fun s s' => Disjoint (Spec.hitBundles g k s) (Spec.hitBundles g k s')) ∧ occInsert (weightedFlavour ℚ 2) g k.dyn whole (k.init _) = some t ∧
    occRun (weightedFlavour ℚ 2) g k.dyn ray (fun _ => true) (parts.map .insert) (k.init _) = some t' ∧ c < 2 ^ 2 ∧
    ((t.content c i).getD Occ.new).numFree = 0 ∧ ((t'.content c i).getD Occ.new).numFree = 1 :=
  ⟨pieceKind, unitGeo, xRay, _, _, pieceWhole.get pieceWhole_runs, pieceParts.get pieceParts_runs, 1, ![1, 0], by norm_num [unitGeo], piece_pieces ℚ pA pB xRay, piece_disjoint ℚ xRay,
    (Option.some_get pieceWhole_runs).symm, (Option.some_get pieceParts_runs).symm, by norm_num, by decide +kernel, by decide +kernel⟩

/-- a diagonal ray, points in the bundles (1, 2), (2, 1) and behind them in the bundle (2, 2) -/
def diagRay (_ _ : Pt ℚ 2) : List (Idx 2) := [![0, 0], ![1, 1]]
def pLeft : Pt ℚ 2 := ![3/2, 5/2]
def pRight : Pt ℚ 2 := ![5/2, 3/2]
def pBehind : Pt ℚ 2 := ![5/2, 5/2]
def wallScan (W : Type) : Scan ℚ 2 W := visScan W [pLeft, pRight] diagRay
def behindScan (W : Type) : Scan ℚ 2 W := visScan W [pBehind] diagRay
/-- a cell is visible with probability 1/10 behind an occupied cell and 9/10 behind a free or unknown cell -/
def clearVm : VisModel ℚ := { probPrior := 1/2, probFree := 1/10, probOcc := 9/10 }
/-- occupied if there is a hit -/
def anyHit {W E : Type} (o : Occ W E) : ℚ := if o.data.isSome then 1 else 0

def wallFirst {W E : Type} [AddCommMonoid W] (fl : Flavour ℚ 2 W E) : Option (St pieceKind.backend (Occ W E)) :=
  occRun fl unitGeo pieceKind.dyn diagRay (fun _ => true) [.insertVisible (wallScan W) (some anyHit) (some clearVm), .insertVisible (behindScan W) (some anyHit) (some clearVm)] (pieceKind.init _)
def behindFirst {W E : Type} [AddCommMonoid W] (fl : Flavour ℚ 2 W E) : Option (St pieceKind.backend (Occ W E)) :=
  occRun fl unitGeo pieceKind.dyn diagRay (fun _ => true) [.insertVisible (behindScan W) (some anyHit) (some clearVm), .insertVisible (wallScan W) (some anyHit) (some clearVm)] (pieceKind.init _)
theorem wallFirst_runs : (wallFirst (occFlavour ℚ 2)).isSome = true := by decide +kernel
theorem behindFirst_runs : (behindFirst (occFlavour ℚ 2)).isSome = true := by decide +kernel
theorem wallFirst_runs_weighted : (wallFirst (weightedFlavour ℚ 2)).isSome = true := by decide +kernel
theorem behindFirst_runs_weighted : (behindFirst (weightedFlavour ℚ 2)).isSome = true := by decide +kernel

/-- **C95 refuted** (order of visibility-aware insertions, both classes). A scan of a wall and a scan of a point behind it: if the wall is inserted first, the point behind it is not recorded; in the other order it is. -/
theorem C95_visible_order_refuted : ∃ (k : Kind 2) (g : Geo ℚ 2) (ray : Pt ℚ 2 → Pt ℚ 2 → List (Idx 2)) (vm : VisModel ℚ) (c : Nat) (i : Idx 2), 0 < g.r ∧ c < 2 ^ 2 ∧
    (∃ (occ : Occ Nat (Pt ℚ 2) → ℚ) (s s' : Scan ℚ 2 Nat) (t t' : St k.backend (Occ Nat (Pt ℚ 2))),
      occRun (occFlavour ℚ 2) g k.dyn ray (fun _ => true) [.insertVisible s (some occ) (some vm), .insertVisible s' (some occ) (some vm)] (k.init _) = some t ∧
      occRun (occFlavour ℚ 2) g k.dyn ray (fun _ => true) [.insertVisible s' (some occ) (some vm), .insertVisible s (some occ) (some vm)] (k.init _) = some t' ∧
      ((t.content c i).getD Occ.new).numOccupied = 0 ∧ ((t'.content c i).getD Occ.new).numOccupied = 1) ∧
    (∃ (occ : Occ ℚ (Pt ℚ 2 × ℚ) → ℚ) (s s' : Scan ℚ 2 ℚ) (t t' : St k.backend (Occ ℚ (Pt ℚ 2 × ℚ))),
      occRun (weightedFlavour ℚ 2) g k.dyn ray (fun _ => true) [.insertVisible s (some occ) (some vm), .insertVisible s' (some occ) (some vm)] (k.init _) = some t ∧
      occRun (weightedFlavour ℚ 2) g k.dyn ray (fun _ => true) [.insertVisible s' (some occ) (some vm), .insertVisible s (some occ) (some vm)] (k.init _) = some t' ∧
      ((t.content c i).getD Occ.new).weightOccupied = 0 ∧ ((t'.content c i).getD Occ.new).weightOccupied = 1) :=
  ⟨pieceKind, unitGeo, diagRay, clearVm, 0, ![1, 1], by norm_num [unitGeo], by norm_num,
    ⟨anyHit, wallScan Nat, behindScan Nat, (wallFirst (occFlavour ℚ 2)).get wallFirst_runs, (behindFirst (occFlavour ℚ 2)).get behindFirst_runs,
      (Option.some_get wallFirst_runs).symm, (Option.some_get behindFirst_runs).symm, by decide +kernel, by decide +kernel⟩,
    ⟨anyHit, wallScan ℚ, behindScan ℚ, (wallFirst (weightedFlavour ℚ 2)).get wallFirst_runs_weighted, (behindFirst (weightedFlavour ℚ 2)).get behindFirst_runs_weighted,
      (Option.some_get wallFirst_runs_weighted).symm, (Option.some_get behindFirst_runs_weighted).symm, by decide +kernel, by decide +kernel⟩⟩

/-! ### Non-vacuity -/

/-- the scan with two points inserted at once: its pieces share no bundle, so the two runs give the same map, which is not empty -/
example : ∃ t, occInsert (occFlavour ℚ 2) unitGeo pieceKind.dyn (visScan Nat [pA, pB] xRay) (pieceKind.init _) = some t ∧
    (∃ t', occRun (occFlavour ℚ 2) unitGeo pieceKind.dyn xRay (fun _ => true) ([visScan Nat [pA] xRay, visScan Nat [pB] xRay].map .insert) (pieceKind.init _) = some t' ∧ SameMap t t') ∧
    t.bundleIndices ≠ [] := by
  have h : (occInsert (occFlavour ℚ 2) unitGeo pieceKind.dyn (visScan Nat [pA, pB] xRay) (pieceKind.init _)).isSome = true := by decide +kernel
  exact ⟨_, (Option.some_get h).symm, C95_disjoint_pieces_partial pieceKind unitGeo (by norm_num [unitGeo]) xRay (fun _ => true) _ ⟨[], rfl⟩ _ _ (piece_pieces Nat pA pB xRay) (piece_disjoint Nat xRay) _
    (Option.some_get h).symm, by decide +kernel +revert⟩

/-- two scans in both orders, on a static map of either class -/
example : (∃ t t', occRun (occFlavour ℚ 2) unitGeo pieceKind.dyn xRay (fun _ => true) ([visScan Nat [pA, pB] xRay, visScan Nat [pHigh, pLow] slopeRay].map .insert) (pieceKind.init _) = some t ∧
      occRun (occFlavour ℚ 2) unitGeo pieceKind.dyn xRay (fun _ => true) ([visScan Nat [pHigh, pLow] slopeRay, visScan Nat [pA, pB] xRay].map .insert) (pieceKind.init _) = some t' ∧ SameMap t t' ∧
      t.bundleIndices ≠ []) ∧
    (∃ t t', occRun (weightedFlavour ℚ 2) unitGeo pieceKind.dyn xRay (fun _ => true) ([visScan ℚ [pA, pB] xRay, visScan ℚ [pHigh, pLow] slopeRay].map .insert) (pieceKind.init _) = some t ∧
      occRun (weightedFlavour ℚ 2) unitGeo pieceKind.dyn xRay (fun _ => true) ([visScan ℚ [pHigh, pLow] slopeRay, visScan ℚ [pA, pB] xRay].map .insert) (pieceKind.init _) = some t' ∧ SameMap t t' ∧
      t.bundleIndices ≠ []) := by
  obtain ⟨h1, h2⟩ := C95_scan_order pieceKind unitGeo (by norm_num [unitGeo]) xRay
  constructor
  · have h : (occRun (occFlavour ℚ 2) unitGeo pieceKind.dyn xRay (fun _ => true) ([visScan Nat [pA, pB] xRay, visScan Nat [pHigh, pLow] slopeRay].map .insert) (pieceKind.init _)).isSome = true := by
      decide +kernel
    obtain ⟨t', ht', hm⟩ := h1 (fun _ => true) _ ⟨[], rfl⟩ _ [visScan Nat [pHigh, pLow] slopeRay, visScan Nat [pA, pB] xRay] (List.Perm.swap ..) _ (Option.some_get h).symm
    exact ⟨_, t', (Option.some_get h).symm, ht', hm, by clear hm ht' t'; decide +kernel +revert⟩
  · have h : (occRun (weightedFlavour ℚ 2) unitGeo pieceKind.dyn xRay (fun _ => true) ([visScan ℚ [pA, pB] xRay, visScan ℚ [pHigh, pLow] slopeRay].map .insert) (pieceKind.init _)).isSome = true := by
      decide +kernel
    obtain ⟨t', ht', hm⟩ := h2 (fun _ => true) _ ⟨[], rfl⟩ _ [visScan ℚ [pHigh, pLow] slopeRay, visScan ℚ [pA, pB] xRay] (List.Perm.swap ..) _ (Option.some_get h).symm
    exact ⟨_, t', (Option.some_get h).symm, ht', hm, by clear hm ht' t'; decide +kernel +revert⟩

/-- a ray tracer that sees its end point only through the bundle that contains it: the bundles of row 0 before the column of the end point -/
def rowRay (_ e : Pt ℚ 2) : List (Idx 2) := (List.range (toBundleIndex 2 e 0).toNat).map fun j => ![(j : Int), 0]

/-- two points of one bundle, inserted at once and one after the other with such a ray tracer -/
example : ∃ t, occInsert (occFlavour ℚ 2) unitGeo pieceKind.dyn (visScan Nat [pHigh, pLow] rowRay) (pieceKind.init _) = some t ∧
    (∃ t', occRun (occFlavour ℚ 2) unitGeo pieceKind.dyn rowRay (fun _ => true) ([visScan Nat [pHigh] rowRay, visScan Nat [pLow] rowRay].map .insert) (pieceKind.init _) = some t' ∧ SameMap t t') ∧
    ((t.content 0 ![0, 0]).getD Occ.new).numFree = 4 := by
  have h : (occInsert (occFlavour ℚ 2) unitGeo pieceKind.dyn (visScan Nat [pHigh, pLow] rowRay) (pieceKind.init _)).isSome = true := by decide +kernel
  refine ⟨_, (Option.some_get h).symm, C95_any_pieces_partial pieceKind unitGeo (by norm_num [unitGeo]) rowRay (fun _ => true) _ ⟨[], rfl⟩ _ _ (piece_pieces Nat pHigh pLow rowRay) ?_ _
    (Option.some_get h).symm, by decide +kernel +revert⟩
  intro o p q b hp hq
  show rowRay o p = rowRay o q
  unfold rowRay
  rw [(C01_bundle_contains_point (by norm_num : (0:ℚ) < 2) p b).2 hp, (C01_bundle_contains_point (by norm_num : (0:ℚ) < 2) q b).2 hq]

end Ndt
