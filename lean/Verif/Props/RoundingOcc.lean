import Verif.Proofs.RoundingOcc
import Verif.Props.Rounding
import Verif.Props.OccMap
import Verif.Props.OccVisible

/-! Property theorems C93: occupancy maps of floating-point numbers; C77 for whole histories that are computed without error. -/

namespace Ndt
open St

section
variable {K : Type} [Field K] [LinearOrder K] [IsStrictOrderedRing K] [FloorRing K] {d : Nat}

section generic
variable {W E : Type} [AddCommMonoid W]

omit [IsStrictOrderedRing K] in
theorem scanned_defined (R : Arith K) (g : Geo K d) (s : Scan K d W)
    (h : ∀ p ∈ s.cloud.filter fun p => g.normal p, g.normal (s.pose p) = true → (toBundleIndexR R g.r (g.toMap (s.pose p))).isSome) :
    ∀ p ∈ Spec.scanned g s, (toBundleIndexR R g.r p).isSome := by
  intro p hp
  unfold Spec.scanned at hp
  obtain ⟨q, hq, rfl⟩ := List.mem_map.1 (Multiset.mem_coe.1 hp)
  obtain ⟨hq, hn⟩ := List.mem_filter.1 hq
  obtain ⟨q', hq', rfl⟩ := List.mem_map.1 hq
  exact h q' hq' hn

omit [IsStrictOrderedRing K] in
open scoped Classical in
theorem accListR_scanned (R : Arith K) (g : Geo K d) (k : Kind d) (s : Scan K d W) (hdef : ∀ p ∈ Spec.scanned g s, (toBundleIndexR R g.r p).isSome) :
    ((accListR R g ((k.init (Occ W E)).abs.valid k.dyn) s.pose (s.cloud.filter fun p => g.normal p) : List (Pt K d)) : Multiset (Pt K d)) =
      (Spec.scanned g s).filter fun p => ∃ b, toBundleIndexR R g.r p = some b ∧ Spec.HasBundle k b := by
  unfold accListR Spec.scanned
  rw [Multiset.filter_coe]
  refine congrArg _ (List.filter_congr fun p hp => ?_)
  rw [Bool.eq_iff_iff, hasBundle_iff, decide_eq_true_iff]
  obtain ⟨b, hb⟩ := Option.isSome_iff_exists.1 (hdef p (Multiset.mem_coe.2 hp))
  rw [idxR_of_some hb, hb]
  simp

omit [IsStrictOrderedRing K] in
theorem accListR_assigned (R : Arith K) (g : Geo K d) (k : Kind d) (s : Scan K d W) (hdef : ∀ p ∈ Spec.scanned g s, (toBundleIndexR R g.r p).isSome) (c : Nat) (i : Idx d) :
    (((accListR R g ((k.init (Occ W E)).abs.valid k.dyn) s.pose (s.cloud.filter fun p => g.normal p)).filter (fun p => decide (generateIndex (idxR R g.r p) c = i)) : List (Pt K d)) :
      Multiset (Pt K d)) = Spec.assignedTo (toBundleIndexR R g.r) k c i (Spec.scanned g s) := by
  classical
  rw [← Multiset.filter_coe, accListR_scanned R g k s hdef, Multiset.filter_filter]
  unfold Spec.assignedTo
  refine Multiset.filter_congr fun p hp => ?_
  obtain ⟨b, hb⟩ := Option.isSome_iff_exists.1 (hdef p hp)
  rw [idxR_of_some hb, hb]
  simp [and_comm]

omit [IsStrictOrderedRing K] in
theorem accListR_hitsAt (R : Arith K) (g : Geo K d) (k : Kind d) (s : Scan K d W) (hdef : ∀ p ∈ Spec.scanned g s, (toBundleIndexR R g.r p).isSome) (b : Idx d) (hb : Spec.HasBundle k b) :
    (((accListR R g ((k.init (Occ W E)).abs.valid k.dyn) s.pose (s.cloud.filter fun p => g.normal p)).filter (fun p => decide (idxR R g.r p = b)) : List (Pt K d)) :
      Multiset (Pt K d)) = Spec.hitsAt (toBundleIndexR R g.r) g s b := by
  classical
  rw [← Multiset.filter_coe, accListR_scanned R g k s hdef, Multiset.filter_filter]
  unfold Spec.hitsAt
  refine Multiset.filter_congr fun p hp => ?_
  obtain ⟨b', hb'⟩ := Option.isSome_iff_exists.1 (hdef p hp)
  rw [idxR_of_some hb', hb', Option.some.injEq]
  constructor
  · exact fun h => h.1
  · rintro rfl; exact ⟨rfl, b', rfl, hb⟩

omit [IsStrictOrderedRing K] in
theorem mem_bundlesHit (R : Arith K) (g : Geo K d) (k : Kind d) (s : Scan K d W) (hdef : ∀ p ∈ Spec.scanned g s, (toBundleIndexR R g.r p).isSome) (b : Idx d) :
    b ∈ Spec.bundlesHit (toBundleIndexR R g.r) g k s ↔
      ∃ p ∈ accListR R g ((k.init (Occ W E)).abs.valid k.dyn) s.pose (s.cloud.filter fun p => g.normal p), idxR R g.r p = b := by
  classical
  unfold Spec.bundlesHit
  rw [Finset.mem_filter, Multiset.mem_toFinset, Multiset.mem_filterMap]
  constructor
  · rintro ⟨⟨p, hp, hb⟩, hk⟩
    refine ⟨p, ?_, idxR_of_some hb⟩
    rw [← Multiset.mem_coe, accListR_scanned R g k s hdef, Multiset.mem_filter]
    exact ⟨hp, b, hb, hk⟩
  · rintro ⟨p, hp, hx⟩
    rw [← Multiset.mem_coe, accListR_scanned R g k s hdef, Multiset.mem_filter] at hp
    obtain ⟨hp, b', hb', hk⟩ := hp
    rw [idxR_of_some hb'] at hx
    subst hx
    exact ⟨⟨p, hp, hb'⟩, hk⟩

/-- the misses of a scan in terms of the weights of the class -/
noncomputable def freeAt (fl : Flavour K d W E) (skip : Bool) (q : Pt K d → Option (Idx d)) (g : Geo K d) (k : Kind d) (s : Scan K d W) (c : Nat) (i : Idx d) : W :=
  open scoped Classical in
  ∑ b ∈ Spec.bundlesHit q g k s, ((s.ray (g.toMap (s.pose 0)) (Spec.meanOf (Spec.hitsAt q g s b))).filter fun x =>
    decide (Spec.HasBundle k x ∧ generateIndex x c = i ∧ (skip = true → x ∉ Spec.bundlesHit q g k s))).length • fl.amount ((Spec.hitsAt q g s b).map fl.sample)

omit [IsStrictOrderedRing K] in
/-- contribution of one insertion -/
theorem insertR_contribution (R : Arith K) (fl : Flavour K d W E) (hmean : ∀ s : Multiset (Pt K d), fl.mean (s.map fl.sample) = Spec.meanOf s) (k : Kind d) (g : Geo K d)
    (s : Scan K d W) (st t : St k.backend (Occ W E)) (hI : RInv k.lawful k.dyn st) (hk : Abs.Keeps k.dyn (k.init (Occ W E)).abs st.abs)
    (h : occInsertR R fl g k.dyn s st = some t) :
    (∀ p ∈ Spec.scanned g s, (toBundleIndexR R g.r p).isSome) ∧ ∀ c, c < 2 ^ d → ∀ i,
    (t.abs.val c i).samples = (st.abs.val c i).samples + (Spec.assignedTo (toBundleIndexR R g.r) k c i (Spec.scanned g s)).map fl.sample ∧
    (t.abs.val c i).free = (st.abs.val c i).free + freeAt fl fl.eraseHits (toBundleIndexR R g.r) g k s c i := by
  classical
  obtain ⟨-, -, u, hu, hval⟩ := occInsertR_inv k.lawful R fl g k.dyn s st t hI h
  have hv : st.valid k.dyn = (k.init (Occ W E)).abs.valid k.dyn := funext hk.valid
  rw [hv] at hu hval
  obtain ⟨u1, u2, u3, u4, u5⟩ := occCollectR_spec R fl g _ s.pose s.cloud u hu
  have hdef := scanned_defined R g s u5
  refine ⟨hdef, fun c hc i => ⟨?_, ?_⟩⟩
  · rw [hval c hc i, Occ.samples_add]
    refine congrArg (_ + ·) ?_
    refine (effectsOf_samples fl _ _ s _ u (fun b => decide (generateIndex b c = i))).trans ?_
    rw [u3 (fun b => decide (generateIndex b c = i)), accListR_assigned R g k s hdef c i]
  · rw [hval c hc i, Occ.add_free]
    refine congrArg₂ (· + ·) rfl ?_
    refine (effectsOf_free fl _ _ s _ u (fun b => decide (generateIndex b c = i))).trans ?_
    have hmem : ∀ b, b ∈ Spec.bundlesHit (toBundleIndexR R g.r) g k s ↔ b ∈ u.map Prod.fst := fun b => (mem_bundlesHit (E := E) R g k s hdef b).trans (u2 b).symm
    have hfin : Spec.bundlesHit (toBundleIndexR R g.r) g k s = (u.map Prod.fst).toFinset := by
      ext b; rw [hmem, List.mem_toFinset]
    unfold freeAt
    refine Eq.trans ?_ (Finset.sum_congr hfin.symm fun _ _ => rfl)
    rw [List.sum_toFinset _ u1, List.map_map]
    refine congrArg List.sum (List.map_congr_left fun e he => ?_)
    have hke : Spec.HasBundle k e.1 := (hasBundle_iff (Occ W E) k e.1).1 (occCollectR_valid R fl g _ s.pose s.cloud u hu e he)
    have hve : e.2 = (Spec.hitsAt (toBundleIndexR R g.r) g s e.1).map fl.sample := by
      rw [u4 e he, accListR_hitsAt R g k s hdef e.1 hke]
    simp only [Function.comp_apply]
    rw [hve, hmean]
    have hf : ∀ x, ((k.init (Occ W E)).abs.valid k.dyn x && (decide (generateIndex x c = i) && (!fl.eraseHits || !(u.map Prod.fst).contains x))) =
        decide (Spec.HasBundle k x ∧ generateIndex x c = i ∧ (fl.eraseHits = true → x ∉ Spec.bundlesHit (toBundleIndexR R g.r) g k s)) := by
      intro x
      rw [Bool.eq_iff_iff, decide_eq_true_iff, hmem, ← hasBundle_iff (Occ W E)]
      simp only [Bool.and_eq_true, decide_eq_true_eq, Bool.or_eq_true, Bool.not_eq_true', List.contains_eq_mem]
      refine and_congr Iff.rfl (and_congr Iff.rfl ?_)
      rw [decide_eq_false_iff_not]
      cases fl.eraseHits <;> simp
    rw [List.filter_congr (fun x _ => hf x)]
    rfl

omit [IsStrictOrderedRing K] in
theorem runR_contribution (R : Arith K) (fl : Flavour K d W E) (hmean : ∀ s : Multiset (Pt K d), fl.mean (s.map fl.sample) = Spec.meanOf s) (k : Kind d) (g : Geo K d)
    (defRay : Pt K d → Pt K d → List (Idx d)) (exp : Occ W E → Bool) : ∀ (ops : List (OccMapOp K d W E)) (st t : St k.backend (Occ W E)), RInv k.lawful k.dyn st →
    Abs.Keeps k.dyn (k.init (Occ W E)).abs st.abs → (∀ op ∈ ops, op.Plain) → occRunR R fl g k.dyn defRay exp ops st = some t → ∀ c, c < 2 ^ d → ∀ i,
    (t.abs.val c i).samples = (st.abs.val c i).samples + (((scansOf ops).map fun s => Spec.assignedTo (toBundleIndexR R g.r) k c i (Spec.scanned g s)).sum).map fl.sample ∧
    (t.abs.val c i).free = (st.abs.val c i).free + ((scansOf ops).map fun s => freeAt fl fl.eraseHits (toBundleIndexR R g.r) g k s c i).sum
  | [], st, t, _, _, _, h, c, _, i => by cases h; simp [scansOf]
  | op :: ops, st, t, hI, hk, hp, h, c, hc, i => by
    simp only [occRunR] at h
    obtain ⟨st1, h1, h2⟩ := Option.bind_eq_some_iff.1 h
    obtain ⟨a1, a2⟩ := occStepR_inv k.lawful R fl g k.dyn defRay exp op st st1 hI h1
    obtain ⟨b1, b2⟩ := runR_contribution R fl hmean k g defRay exp ops st1 t a1 (hk.trans a2) (fun o ho => hp o (List.mem_cons_of_mem _ ho)) h2 c hc i
    cases op with
    | insert s =>
      obtain ⟨c1, c2⟩ := (insertR_contribution R fl hmean k g s st st1 hI hk h1).2 c hc i
      simp only [scansOf, List.map_cons, List.sum_cons, Multiset.map_add]
      rw [b1, b2, c1, c2, add_assoc, add_assoc]
      exact ⟨rfl, rfl⟩
    | insertVisible s occ vm => exact absurd (hp _ (List.mem_cons_self ..)) id
    | core op =>
      have := (coreStep_spec k.lawful k.dyn exp op st hI st1 h1).2
      rw [this.val] at b1 b2
      exact ⟨b1, b2⟩

omit [IsStrictOrderedRing K] in
theorem init_val (k : Kind d) (c : Nat) (i : Idx d) : (k.init (Occ W E)).abs.val c i = 0 := by unfold Abs.val; rw [Kind.init_content]; rfl

end generic

/-! ### C93, contents -/

omit [IsStrictOrderedRing K] in
/-- **C93** (occupancy maps). After any history of `insert` calls, lookups, allocations and expansions on a map of floating-point numbers, the distribution of grid `c` at `i` contains exactly the points of the scans
whose computed bundle belongs to the map and overlaps that cell, and its free counter is the number of misses of the scans, both with respect to the computed bundles. -/
theorem C93_occupancy_counts (k : Kind d) (R : Arith K) (g : Geo K d) (defRay : Pt K d → Pt K d → List (Idx d)) (exp : Occ Nat (Pt K d) → Bool)
    (ops : List (OccMapOp K d Nat (Pt K d))) (hp : ∀ op ∈ ops, op.Plain) (st : St k.backend (Occ Nat (Pt K d)))
    (h : occRunR R (occFlavour K d) g k.dyn defRay exp ops (k.init _) = some st) (c : Nat) (hc : c < 2 ^ d) (i : Idx d) :
    ((st.content c i).getD Occ.new).samples = ((scansOf ops).map fun s => Spec.assignedTo (toBundleIndexR R g.r) k c i (Spec.scanned g s)).sum ∧
    ((st.content c i).getD Occ.new).numFree = ((scansOf ops).map fun s => Spec.missesAt false (toBundleIndexR R g.r) g k s c i).sum := by
  obtain ⟨h1, h2⟩ := runR_contribution R (occFlavour K d) occFlavour_mean k g defRay exp ops _ st k.init_rinv (Abs.Keeps.refl ..) hp h c hc i
  rw [init_val] at h1 h2
  constructor
  · refine (show _ = (st.abs.val c i).samples from rfl).trans (h1.trans ?_)
    rw [show (occFlavour K d).sample = id from rfl, Multiset.map_id]
    exact zero_add _
  · refine (show _ = (st.abs.val c i).free from rfl).trans (h2.trans ((zero_add _).trans ?_))
    refine congrArg List.sum (List.map_congr_left fun s _ => ?_)
    unfold freeAt Spec.missesAt
    refine Finset.sum_congr rfl fun b _ => ?_
    rw [smul_eq_mul, show (occFlavour K d).sample = id from rfl, Multiset.map_id]
    rfl

omit [IsStrictOrderedRing K] in
/-- **C93** (weighted occupancy maps): as `C93_occupancy_counts`. Every point has weight 1, and ray cells that are hit bundles of the scan do not count. -/
theorem C93_weighted_counts (k : Kind d) (R : Arith K) (g : Geo K d) (defRay : Pt K d → Pt K d → List (Idx d)) (exp : Occ K (Pt K d × K) → Bool)
    (ops : List (OccMapOp K d K (Pt K d × K))) (hp : ∀ op ∈ ops, op.Plain) (st : St k.backend (Occ K (Pt K d × K)))
    (h : occRunR R (weightedFlavour K d) g k.dyn defRay exp ops (k.init _) = some st) (c : Nat) (hc : c < 2 ^ d) (i : Idx d) :
    ((st.content c i).getD Occ.new).samples = (((scansOf ops).map fun s => Spec.assignedTo (toBundleIndexR R g.r) k c i (Spec.scanned g s)).sum).map (fun p => (p, 1)) ∧
    ((st.content c i).getD Occ.new).numFree = ((((scansOf ops).map fun s => Spec.missesAt true (toBundleIndexR R g.r) g k s c i).sum : Nat) : K) := by
  obtain ⟨h1, h2⟩ := runR_contribution R (weightedFlavour K d) weightedFlavour_mean k g defRay exp ops _ st k.init_rinv (Abs.Keeps.refl ..) hp h c hc i
  rw [init_val] at h1 h2
  constructor
  · refine (show _ = (st.abs.val c i).samples from rfl).trans (h1.trans ?_)
    exact zero_add _
  · refine (show _ = (st.abs.val c i).free from rfl).trans (h2.trans ((zero_add _).trans ?_))
    rw [Nat.cast_list_sum, List.map_map]
    refine congrArg List.sum (List.map_congr_left fun s _ => ?_)
    rw [Function.comp_apply]
    unfold freeAt Spec.missesAt
    rw [Nat.cast_sum]
    refine Finset.sum_congr rfl fun b _ => ?_
    rw [weightedFlavour_amount, nsmul_eq_mul, Nat.cast_mul]
    rfl

/-! ### C93, all histories -/

section generic
variable {W E : Type} [AddCommMonoid W]

omit [Field K] [LinearOrder K] [IsStrictOrderedRing K] [FloorRing K] [AddCommMonoid W] in
theorem sublist_sum_le {u v : List (Idx d × Multiset E)} (P : Idx d → Bool) (h : u.Sublist v) :
    ((u.filter (fun e => P e.1)).map Prod.snd).sum ≤ ((v.filter (fun e => P e.1)).map Prod.snd).sum := by
  have h' := (h.filter (fun e => P e.1)).map Prod.snd
  generalize (u.filter (fun e => P e.1)).map Prod.snd = a at h'
  generalize (v.filter (fun e => P e.1)).map Prod.snd = b at h'
  induction h' with
  | slnil => exact le_refl _
  | cons x _ ih => rw [List.sum_cons]; exact ih.trans (Multiset.le_add_left _ _)
  | cons_cons x _ ih => rw [List.sum_cons, List.sum_cons]; exact add_le_add (le_refl _) ih

omit [IsStrictOrderedRing K] in
theorem stepR_le (R : Arith K) (fl : Flavour K d W E) (k : Kind d) (g : Geo K d) (defRay : Pt K d → Pt K d → List (Idx d)) (exp : Occ W E → Bool) (op : OccMapOp K d W E)
    (st t : St k.backend (Occ W E)) (hI : RInv k.lawful k.dyn st) (hk : Abs.Keeps k.dyn (k.init (Occ W E)).abs st.abs) (h : occStepR R fl g k.dyn defRay exp op st = some t)
    (c : Nat) (hc : c < 2 ^ d) (i : Idx d) :
    (t.abs.val c i).samples ≤ (st.abs.val c i).samples + (Spec.assignedTo (toBundleIndexR R g.r) k c i (Spec.scannedBy g op)).map fl.sample := by
  have hv : st.valid k.dyn = (k.init (Occ W E)).abs.valid k.dyn := funext hk.valid
  have ins : ∀ s s' : Scan K d W, Spec.scanned g s' = Spec.scanned g s → occInsertR R fl g k.dyn s' st = some t →
      (t.abs.val c i).samples ≤ (st.abs.val c i).samples + (Spec.assignedTo (toBundleIndexR R g.r) k c i (Spec.scanned g s)).map fl.sample := by
    intro s s' hs h
    obtain ⟨-, -, u, hu, hval⟩ := occInsertR_inv k.lawful R fl g k.dyn s' st t hI h
    rw [hv] at hu hval
    obtain ⟨u1, u2, u3, u4, u5⟩ := occCollectR_spec R fl g _ s'.pose s'.cloud u hu
    rw [hval c hc i, Occ.samples_add]
    refine le_of_eq (congrArg (_ + ·) ?_)
    refine (effectsOf_samples fl _ _ s' _ u (fun b => decide (generateIndex b c = i))).trans ?_
    rw [u3 (fun b => decide (generateIndex b c = i)), accListR_assigned R g k s' (scanned_defined R g s' u5) c i, hs]
  have fb : ∀ s : Scan K d W, Spec.scanned g (if fl.fallbackDefault then { s with ray := defRay } else s) = Spec.scanned g s := by
    intro s; split <;> rfl
  cases op with
  | core op =>
    have := (coreStep_spec k.lawful k.dyn exp op st hI t h).2
    rw [this.val]
    exact Multiset.le_add_right _ _
  | insert s => exact ins s s rfl h
  | insertVisible s occ vm =>
    cases occ with
    | none => exact ins s _ (fb s) h
    | some occ =>
      cases vm with
      | none => exact ins s _ (fb s) h
      | some vm =>
        obtain ⟨-, -, u, hs, hu, hsub, hval⟩ := occInsertVisibleR_inv k.lawful R fl g k.dyn defRay s occ vm st t hI h
        rw [hv] at hu
        obtain ⟨u1, u2, u3, u4, u5⟩ := occCollectR_spec R fl g _ s.pose s.cloud u hu
        rw [hval c hc i]
        refine add_le_add (le_refl _) ((sublist_sum_le (fun b => decide (generateIndex b c = i)) hsub).trans ?_)
        rw [u3 (fun b => decide (generateIndex b c = i)), accListR_assigned R g k s (scanned_defined R g s u5) c i]
        exact le_refl _

omit [IsStrictOrderedRing K] in
theorem runR_le (R : Arith K) (fl : Flavour K d W E) (k : Kind d) (g : Geo K d) (defRay : Pt K d → Pt K d → List (Idx d)) (exp : Occ W E → Bool) :
    ∀ (ops : List (OccMapOp K d W E)) (st t : St k.backend (Occ W E)), RInv k.lawful k.dyn st → Abs.Keeps k.dyn (k.init (Occ W E)).abs st.abs →
    occRunR R fl g k.dyn defRay exp ops st = some t → ∀ c, c < 2 ^ d → ∀ i,
    (t.abs.val c i).samples ≤ (st.abs.val c i).samples + ((ops.map fun op => Spec.assignedTo (toBundleIndexR R g.r) k c i (Spec.scannedBy g op)).sum).map fl.sample
  | [], st, t, _, _, h, c, _, i => by cases h; simp
  | op :: ops, st, t, hI, hk, h, c, hc, i => by
    simp only [occRunR] at h
    obtain ⟨st1, h1, h2⟩ := Option.bind_eq_some_iff.1 h
    obtain ⟨a1, a2⟩ := occStepR_inv k.lawful R fl g k.dyn defRay exp op st st1 hI h1
    have b := runR_le R fl k g defRay exp ops st1 t a1 (hk.trans a2) h2 c hc i
    have a := stepR_le R fl k g defRay exp op st st1 hI hk h1 c hc i
    refine b.trans ((add_le_add a (le_refl _)).trans ?_)
    rw [List.map_cons, List.sum_cons, Multiset.map_add, add_assoc]

omit [IsStrictOrderedRing K] in
/-- **C93** (nothing is invented). After any history, `insertVisible` calls included, every distribution of either class contains at most the points of the scans whose computed bundle belongs to the map and overlaps its cell,
with their multiplicities. -/
theorem C93_nothing_invented (k : Kind d) (R : Arith K) (fl : Flavour K d W E) (g : Geo K d) (defRay : Pt K d → Pt K d → List (Idx d)) (exp : Occ W E → Bool)
    (ops : List (OccMapOp K d W E)) (st : St k.backend (Occ W E)) (h : occRunR R fl g k.dyn defRay exp ops (k.init _) = some st) (c : Nat) (hc : c < 2 ^ d) (i : Idx d) :
    ((st.content c i).getD Occ.new).samples ≤ ((ops.map fun op => Spec.assignedTo (toBundleIndexR R g.r) k c i (Spec.scannedBy g op)).sum).map fl.sample := by
  have := runR_le R fl k g defRay exp ops _ st k.init_rinv (Abs.Keeps.refl ..) h c hc i
  rw [init_val] at this
  exact this.trans (le_of_eq (zero_add _))

end generic

theorem mem_sum_iff {A : Type} (a : A) : ∀ l : List (Multiset A), a ∈ l.sum ↔ ∃ m ∈ l, a ∈ m
  | [] => by simp
  | m :: l => by rw [List.sum_cons, Multiset.mem_add, mem_sum_iff a l]; simp

/-- **C93 (partial).** Whatever the rounding and whatever the history, a point stored in a distribution is a point of one of the scans and lies in the cell of the distribution up to the relative error of the arithmetic. Missing: exact containment
(C27), refuted below. -/
theorem C93_stored_near_partial (k : Kind d) (R : Arith K) (g : Geo K d) (hr : 0 < g.r) (hh : bundleResolutionR R g.r = g.r / 2) (defRay : Pt K d → Pt K d → List (Idx d))
    (exp : Occ Nat (Pt K d) → Bool) (ops : List (OccMapOp K d Nat (Pt K d))) (st : St k.backend (Occ Nat (Pt K d)))
    (h : occRunR R (occFlavour K d) g k.dyn defRay exp ops (k.init _) = some st) (c : Nat) (hc : c < 2 ^ d) (i : Idx d) (o : Occ Nat (Pt K d)) (ho : st.content c i = some o)
    (p : Pt K d) (hp : p ∈ o.samples) :
    (∃ op ∈ ops, p ∈ Spec.scannedBy g op) ∧ Spec.NearCell ((1 + R.T.u) ^ 2 * (1 + R.D.u) - 1) g.r c i p := by
  classical
  have e := C93_nothing_invented k R (occFlavour K d) g defRay exp ops st h c hc i
  rw [ho, Option.getD_some, show (occFlavour K d).sample = id from rfl, Multiset.map_id] at e
  obtain ⟨m, hm, hpm⟩ := (mem_sum_iff p _).1 (Multiset.mem_of_le e hp)
  obtain ⟨op, hop, rfl⟩ := List.mem_map.1 hm
  unfold Spec.assignedTo at hpm
  obtain ⟨hps, b, hb, _, rfl⟩ := Multiset.mem_filter.1 hpm
  exact ⟨⟨op, hop, hps⟩, C77_near_cell R g.r hr hh p b hb c⟩

/-! ### C77 and C93, histories without rounding errors -/

omit [IsStrictOrderedRing K] in
theorem collectR_agree (R : Arith K) (g : Geo K d) (ok : Idx d → Bool) (pose : Pt K d → Pt K d) (cloud : List (Pt K d))
    (h : ∀ p ∈ ((cloud.map pose).filter (fun p => g.normal p)).map g.toMap, toBundleIndexR R g.r p = some (toBundleIndex g.r p)) :
    collectR R g ok pose cloud [] = some (collect g ok pose cloud) := by
  obtain ⟨u, hu⟩ := collectR_total R g ok pose cloud [] fun p hp hn => by
    rw [h _ (List.mem_map.2 ⟨pose p, List.mem_filter.2 ⟨List.mem_map.2 ⟨p, hp, rfl⟩, hn⟩, rfl⟩)]; rfl
  rw [hu, (collectR_eq R g ok pose u cloud [] hu).1, collect_eq]
  have hacc : accListR R g ok pose cloud = accList g ok pose cloud := by
    unfold accListR accList
    exact List.filter_congr fun p hp => by rw [idxR_of_some (h p hp)]
  rw [hacc]
  have aux : ∀ (l : List (Pt K d)) (v : List (Idx d × Multiset (Pt K d))), (∀ p ∈ l, idxR R g.r p = toBundleIndex g.r p) →
      l.foldl (fun u p => upsert 0 (fun s => s + {p}) (idxR R g.r p) u) v = l.foldl (fun u p => upsert 0 (fun s => s + {p}) (toBundleIndex g.r p) u) v := by
    intro l
    induction l with
    | nil => intro v _; rfl
    | cons p l ih =>
      intro v hl
      rw [List.foldl_cons, List.foldl_cons, hl p (List.mem_cons_self ..)]
      exact ih _ fun q hq => hl q (List.mem_cons_of_mem _ hq)
  exact congrArg some (aux _ _ fun p hp => idxR_of_some (h p (List.mem_filter.1 hp).1))

omit [IsStrictOrderedRing K] in
theorem gridRunR_agree {B : Backend d} (R : Arith K) (g : Geo K d) (dyn : Bool) (exp : Multiset (Pt K d) → Bool) : ∀ (ops : List (GridOp K d)) (st : St B (Multiset (Pt K d))),
    (∀ p ∈ Spec.offered g ops, toBundleIndexR R g.r p = some (toBundleIndex g.r p)) → gridRunR R g dyn exp ops st = gridRun g dyn exp ops st
  | [], _, _ => rfl
  | op :: ops, st, h => by
    have key : gridStepR R g dyn exp op st = gridStep g dyn exp op st := by
      cases op with
      | core op => rfl
      | insert pose cloud =>
        simp only [gridStepR, gridInsertR, gridStep, gridInsert]
        rw [collectR_agree R g _ pose cloud fun p hp => h p (by simp only [Spec.offered]; exact Multiset.mem_add.2 (Or.inl hp))]
        rfl
    simp only [gridRunR, gridRun]
    rw [key]
    refine congrArg _ (funext fun st1 => gridRunR_agree R g dyn exp ops st1 fun p hp => h p ?_)
    cases op with
    | insert pose cloud => simp only [Spec.offered]; exact Multiset.mem_add.2 (Or.inr hp)
    | core op => exact hp

theorem wellInside_agree (R : Arith K) (r : K) (hr : 0 < r) (hh : bundleResolutionR R r = r / 2) (p : Pt K d) (b : Idx d)
    (hb : ∀ i, -2147483648 ≤ b i ∧ b i < 2147483648) (h : Spec.WellInside ((1 + R.T.u) ^ 2 * (1 + R.D.u) - 1) r b p) : toBundleIndexR R r p = some (toBundleIndex r p) := by
  have e := C77_exact_inside R r hr hh p b hb h
  have hε : 0 ≤ (1 + R.T.u) ^ 2 * (1 + R.D.u) - 1 := by
    have h1 := R.T.nonneg
    have h2 := R.D.nonneg
    have : (1 + R.T.u) ^ 2 * (1 + R.D.u) - 1 = 2 * R.T.u + R.T.u * R.T.u + R.D.u + 2 * (R.T.u * R.D.u) + R.T.u * R.T.u * R.D.u := by ring
    rw [this]
    positivity
  have hin : Spec.InBundle r b p := fun i => by
    have := mul_nonneg hε (abs_nonneg (p i))
    obtain ⟨h1, h2⟩ := h i
    exact ⟨by linarith, by linarith⟩
  rw [e, (toBundleIndex_spec hr p b).2 hin]

theorem power_agree (t : Nat) (ht : 1 ≤ t) (n : Int) (r : K) (hg : r = (2 : K) ^ n) (p : Pt K d) (hp : ∀ i, toBits t (p i) = p i) (b : Idx d)
    (hb : ∀ i, -2147483648 ≤ b i ∧ b i < 2147483648) (h : Spec.InBundle r b p) : toBundleIndexR (ieeeArith K t ht) r p = some (toBundleIndex r p) := by
  subst hg
  have hpos : (0 : K) < (2 : K) ^ n := zpow_pos two_pos n
  rw [(C77_exact_power_of_two t ht n p hp b hb).2 h, (toBundleIndex_spec hpos p b).2 h]

/-- **C77** (whole histories). If every offered point keeps the distance of the relative error from the border of its bundle, the map of floating-point numbers goes through exactly the states of the exact map: all properties of the exact map hold for it. -/
theorem C77_exact_history {B : Backend d} (R : Arith K) (g : Geo K d) (hr : 0 < g.r) (hh : bundleResolutionR R g.r = g.r / 2) (dyn : Bool) (exp : Multiset (Pt K d) → Bool)
    (ops : List (GridOp K d)) (st : St B (Multiset (Pt K d)))
    (hin : ∀ p ∈ Spec.offered g ops, ∃ b : Idx d, (∀ i, -2147483648 ≤ b i ∧ b i < 2147483648) ∧ Spec.WellInside ((1 + R.T.u) ^ 2 * (1 + R.D.u) - 1) g.r b p) :
    gridRunR R g dyn exp ops st = gridRun g dyn exp ops st := by
  refine gridRunR_agree R g dyn exp ops st fun p hp => ?_
  obtain ⟨b, hb, hw⟩ := hin p hp
  exact wellInside_agree R g.r hr hh p b hb hw

/-- **C77** (whole histories). If the resolution is a power of two and the coordinates of all offered points are numbers of the scalar type, the map goes through exactly the states of the exact map. -/
theorem C77_exact_history_power_of_two {B : Backend d} (t : Nat) (ht : 1 ≤ t) (n : Int) (g : Geo K d) (hg : g.r = (2 : K) ^ n) (dyn : Bool) (exp : Multiset (Pt K d) → Bool)
    (ops : List (GridOp K d)) (st : St B (Multiset (Pt K d)))
    (hin : ∀ p ∈ Spec.offered g ops, (∀ i, toBits t (p i) = p i) ∧ ∃ b : Idx d, (∀ i, -2147483648 ≤ b i ∧ b i < 2147483648) ∧ Spec.InBundle g.r b p) :
    gridRunR (ieeeArith K t ht) g dyn exp ops st = gridRun g dyn exp ops st := by
  refine gridRunR_agree _ g dyn exp ops st fun p hp => ?_
  obtain ⟨h1, b, hb, hw⟩ := hin p hp
  exact power_agree t ht n g.r hg p h1 b hb hw

section generic
variable {W E : Type} [AddCommMonoid W]

omit [IsStrictOrderedRing K] in
theorem occRunR_agree {B : Backend d} (R : Arith K) (fl : Flavour K d W E) (g : Geo K d) (dyn : Bool) (defRay : Pt K d → Pt K d → List (Idx d)) (exp : Occ W E → Bool) :
    ∀ (ops : List (OccMapOp K d W E)) (st : St B (Occ W E)), (∀ op ∈ ops, ∀ p ∈ Spec.quantised g op, toBundleIndexR R g.r p = some (toBundleIndex g.r p)) →
    occRunR R fl g dyn defRay exp ops st = occRun fl g dyn defRay exp ops st
  | [], _, _ => rfl
  | op :: ops, st, h => by
    have h0 := h op (List.mem_cons_self ..)
    have col : ∀ s : Scan K d W, (∀ p ∈ Spec.scanned g s, toBundleIndexR R g.r p = some (toBundleIndex g.r p)) →
        occCollectR R fl g (st.valid dyn) s.pose s.cloud = some (occCollect fl g (st.valid dyn) s.pose s.cloud) := by
      intro s hs
      unfold occCollectR occCollect
      rw [collectR_agree R g _ s.pose _ fun p hp => hs p hp]
      rfl
    have ins : ∀ s : Scan K d W, (∀ p ∈ Spec.scanned g s, toBundleIndexR R g.r p = some (toBundleIndex g.r p)) → occInsertR R fl g dyn s st = occInsert fl g dyn s st := by
      intro s hs
      unfold occInsertR occInsert
      rw [col s hs]
      rfl
    have fb : ∀ s : Scan K d W, Spec.scanned g (if fl.fallbackDefault then { s with ray := defRay } else s) = Spec.scanned g s := by
      intro s; split <;> rfl
    have key : occStepR R fl g dyn defRay exp op st = occStep fl g dyn defRay exp op st := by
      cases op with
      | core op => rfl
      | insert s => exact ins s h0
      | insertVisible s occ vm =>
        have hs : ∀ p ∈ Spec.scanned g s, toBundleIndexR R g.r p = some (toBundleIndex g.r p) := fun p hp => h0 p (Multiset.mem_cons_of_mem hp)
        have hf := ins (if fl.fallbackDefault then { s with ray := defRay } else s) (by rw [fb s]; exact hs)
        cases occ with
        | none => exact hf
        | some occ =>
          cases vm with
          | none => exact hf
          | some vm =>
            simp only [occStepR, occInsertVisibleR, occStep, occInsertVisible]
            rw [col s hs, Option.bind_some, show toBundleIndexR R g.r (rayStart g s.pose) = some (toBundleIndex g.r (rayStart g s.pose)) from h0 _ (show _ ∈ g.toMap (s.pose 0) ::ₘ Spec.scanned g s from Multiset.mem_cons_self _ _), Option.bind_some]
            rfl
    simp only [occRunR, occRun]
    rw [key]
    exact congrArg _ (funext fun st1 => occRunR_agree R fl g dyn defRay exp ops st1 fun o ho => h o (List.mem_cons_of_mem _ ho))

/-- **C93** (whole histories). If every scanned point, and the origin of every visibility-aware scan, keeps the distance of the relative error from the border of its bundle, the occupancy map of floating-point numbers (either class) goes through
exactly the states of the exact map: everything proved about hits, misses and visibility (C27–C30, C67) holds for it. -/
theorem C93_exact_history {B : Backend d} (R : Arith K) (fl : Flavour K d W E) (g : Geo K d) (hr : 0 < g.r) (hh : bundleResolutionR R g.r = g.r / 2) (dyn : Bool)
    (defRay : Pt K d → Pt K d → List (Idx d)) (exp : Occ W E → Bool) (ops : List (OccMapOp K d W E)) (st : St B (Occ W E))
    (hin : ∀ op ∈ ops, ∀ p ∈ Spec.quantised g op, ∃ b : Idx d, (∀ i, -2147483648 ≤ b i ∧ b i < 2147483648) ∧ Spec.WellInside ((1 + R.T.u) ^ 2 * (1 + R.D.u) - 1) g.r b p) :
    occRunR R fl g dyn defRay exp ops st = occRun fl g dyn defRay exp ops st := by
  refine occRunR_agree R fl g dyn defRay exp ops st fun op ho p hp => ?_
  obtain ⟨b, hb, hw⟩ := hin op ho p hp
  exact wellInside_agree R g.r hr hh p b hb hw

/-- **C93** (whole histories). The same for resolutions that are powers of two, if all coordinates are numbers of the scalar type. -/
theorem C93_exact_history_power_of_two {B : Backend d} (t : Nat) (ht : 1 ≤ t) (n : Int) (fl : Flavour K d W E) (g : Geo K d) (hg : g.r = (2 : K) ^ n) (dyn : Bool)
    (defRay : Pt K d → Pt K d → List (Idx d)) (exp : Occ W E → Bool) (ops : List (OccMapOp K d W E)) (st : St B (Occ W E))
    (hin : ∀ op ∈ ops, ∀ p ∈ Spec.quantised g op, (∀ i, toBits t (p i) = p i) ∧ ∃ b : Idx d, (∀ i, -2147483648 ≤ b i ∧ b i < 2147483648) ∧ Spec.InBundle g.r b p) :
    occRunR (ieeeArith K t ht) fl g dyn defRay exp ops st = occRun fl g dyn defRay exp ops st := by
  refine occRunR_agree _ fl g dyn defRay exp ops st fun op ho p hp => ?_
  obtain ⟨h1, b, hb, hw⟩ := hin op ho p hp
  exact power_agree t ht n g.r hg p h1 b hb hw

/-! ### C93, totality -/

omit [IsStrictOrderedRing K] in
theorem occStepR_total {B : Backend d} (L : B.Lawful) (R : Arith K) (fl : Flavour K d W E) (g : Geo K d) (dyn : Bool) (defRay : Pt K d → Pt K d → List (Idx d)) (exp : Occ W E → Bool)
    (op : OccMapOp K d W E) (st : St B (Occ W E)) (hI : RInv L dyn st) (hv : ∀ i, st.abs.valid dyn i = true → st.abs.Good i)
    (hdef : ∀ p ∈ Spec.quantised g op, (toBundleIndexR R g.r p).isSome) : ∃ st', occStepR R fl g dyn defRay exp op st = some st' := by
  have col : ∀ s : Scan K d W, (∀ p ∈ Spec.scanned g s, (toBundleIndexR R g.r p).isSome) → ∃ u, occCollectR R fl g (st.valid dyn) s.pose s.cloud = some u := by
    intro s hs
    refine occCollectR_total R fl g _ s.pose s.cloud fun p hp hn => hs _ ?_
    unfold Spec.scanned
    exact Multiset.mem_coe.2 (List.mem_map.2 ⟨s.pose p, List.mem_filter.2 ⟨List.mem_map.2 ⟨p, hp, rfl⟩, hn⟩, rfl⟩)
  have ins : ∀ s : Scan K d W, (∀ p ∈ Spec.scanned g s, (toBundleIndexR R g.r p).isSome) → ∃ st', occInsertR R fl g dyn s st = some st' := by
    intro s hs
    obtain ⟨u, hu⟩ := col s hs
    rw [occInsertR_eq L R fl g dyn s st hI, hu, Option.bind_some]
    exact occAdd_total L dyn _ st hI fun e he => hv _ (effectsOf_valid fl _ _ s _ u (occCollectR_valid R fl g _ s.pose s.cloud u hu) e he)
  have fb : ∀ s : Scan K d W, Spec.scanned g (if fl.fallbackDefault then { s with ray := defRay } else s) = Spec.scanned g s := by
    intro s; split <;> rfl
  cases op with
  | core op => exact coreStep_total L dyn exp op st hI hv
  | insert s => exact ins s hdef
  | insertVisible s occ vm =>
    have hs : ∀ p ∈ Spec.scanned g s, (toBundleIndexR R g.r p).isSome := fun p hp => hdef p (Multiset.mem_cons_of_mem hp)
    have hf := ins (if fl.fallbackDefault then { s with ray := defRay } else s) (by rw [fb s]; exact hs)
    cases occ with
    | none => exact hf
    | some occ =>
      cases vm with
      | none => exact hf
      | some vm =>
        obtain ⟨u, hu⟩ := col s hs
        obtain ⟨sb, hsb⟩ := Option.isSome_iff_exists.1 (hdef (g.toMap (s.pose 0)) (show _ ∈ g.toMap (s.pose 0) ::ₘ Spec.scanned g s from Multiset.mem_cons_self _ _))
        have hval := occCollectR_valid R fl g _ s.pose s.cloud u hu
        obtain ⟨⟨o, st1⟩, hy⟩ := visHits_total L dyn fl s.ray occ vm (rayStart g s.pose) sb u [] st hI hv hval
        obtain ⟨⟨hs', h1, h2⟩, h3⟩ := visHits_spec L fl dyn _ occ vm _ _ (st.valid dyn) _ _ st hI rfl o st1 hy
        obtain ⟨a1, a2, _⟩ := occAdd_spec L dyn _ st st1 hI h2
        simp only [occStepR, occInsertVisibleR]
        rw [hu, Option.bind_some, show toBundleIndexR R g.r (rayStart g s.pose) = some sb from hsb, Option.bind_some, hy]
        cases o with
        | none => exact ⟨_, rfl⟩
        | some f =>
          simp only [occFree_eq]
          refine occAdd_total L dyn _ st1 a1 fun e he => ?_
          refine (a2.good _).2 (hv _ (effectsOf_valid fl (st.valid dyn) true s (rayStart g s.pose) u hval e ?_))
          rw [h3 f rfl] at he
          exact List.mem_append_right _ he

omit [IsStrictOrderedRing K] in
/-- **C93** (no failure). On a static map every history runs, as long as the indices of all points and origins are in the range of `int`. -/
theorem C93_static_never_fails (R : Arith K) (fl : Flavour K d W E) (g : Geo K d) (size : Fin d → Nat) (lo : Idx d) (defRay : Pt K d → Pt K d → List (Idx d)) (exp : Occ W E → Bool)
    (ops : List (OccMapOp K d W E)) (hdef : ∀ op ∈ ops, ∀ p ∈ Spec.quantised g op, (toBundleIndexR R g.r p).isSome) :
    ∃ st, occRunR R fl g false defRay exp ops ((Kind.static size lo).init _) = some st := by
  have key : ∀ (ops : List (OccMapOp K d W E)) (st : St (Kind.static size lo).backend (Occ W E)), RInv (Kind.static size lo).lawful false st → (∀ i, st.abs.valid false i = true → st.abs.Good i) →
      (∀ op ∈ ops, ∀ p ∈ Spec.quantised g op, (toBundleIndexR R g.r p).isSome) → ∃ t, occRunR R fl g false defRay exp ops st = some t := by
    intro ops
    induction ops with
    | nil => intro st _ _ _; exact ⟨st, rfl⟩
    | cons op l ih =>
      intro st hI hv hd
      obtain ⟨s1, h1⟩ := occStepR_total (Kind.static size lo).lawful R fl g false defRay exp op st hI hv (hd op (List.mem_cons_self ..))
      obtain ⟨a1, a2⟩ := occStepR_inv (Kind.static size lo).lawful R fl g false defRay exp op st s1 hI h1
      obtain ⟨t, ht⟩ := ih s1 a1 (fun i h => (a2.good i).2 (hv i (by rw [← a2.valid]; exact h))) fun o ho => hd o (List.mem_cons_of_mem _ ho)
      exact ⟨t, by simp only [occRunR, h1, Option.bind_some, ht]⟩
  exact key ops _ (Kind.init_rinv (k := .static size lo)) (fun i h => Kind.static_good size lo i h) hdef

end generic
end
/-! ### C93, an occupancy map of floats with resolution 0.1 -/

/-- a ray of one cell -/
def oneRay : Pt ℚ 2 → Pt ℚ 2 → List (Idx 2) := fun _ _ => [![4, 4]]

def floatScan (W : Type) (p : Pt ℚ 2) : Scan ℚ 2 W := ⟨id, [p], oneRay, id, fun l => List.Perm.refl l⟩

abbrev floatKind : Kind 2 := .static ![2, 2] ![4, 4]

/-- a plain scan with a point on a border, and a visibility-aware one -/
def floatOps (W E : Type) : List (OccMapOp ℚ 2 W E) :=
  [.insert (floatScan W ![1 / 4, 1 / 4]), .core .expandAll, .insertVisible (floatScan W ![9 / 32, 9 / 32]) (some fun _ => 0) (some ⟨1 / 2, 1 / 3, 2 / 3⟩)]

theorem floatOps_defined (W E : Type) : ∀ op ∈ floatOps W E, ∀ p ∈ Spec.quantised tenthGeo op, (toBundleIndexR float32 tenthGeo.r p).isSome := by
  intro op hop p hp
  simp only [floatOps, List.mem_cons, List.not_mem_nil, or_false] at hop
  rcases hop with rfl | rfl | rfl
  · have : p = ![1 / 4, 1 / 4] := by simpa [Spec.quantised, Spec.scanned, floatScan, tenthGeo] using hp
    rw [this]; decide +kernel
  · exact absurd hp (Multiset.notMem_zero p)
  · have : p = 0 ∨ p = ![9 / 32, 9 / 32] := by simpa [Spec.quantised, Spec.scanned, floatScan, tenthGeo] using hp
    rcases this with rfl | rfl <;> decide +kernel

/-- Non-vacuity of `C93_static_never_fails`, `C93_nothing_invented` and `C93_stored_near_partial`: a history with both kinds of scans runs. -/
theorem floatOps_run {W E : Type} [AddCommMonoid W] (fl : Flavour ℚ 2 W E) (exp : Occ W E → Bool) :
    ∃ st, occRunR float32 fl tenthGeo false oneRay exp (floatOps W E) (floatKind.init _) = some st :=
  C93_static_never_fails float32 fl tenthGeo ![2, 2] ![4, 4] oneRay exp (floatOps W E) (floatOps_defined W E)

/-- Non-vacuity of `C93_occupancy_counts` and `C93_weighted_counts`: the plain part of the history. -/
theorem floatPlain_run {W E : Type} [AddCommMonoid W] (fl : Flavour ℚ 2 W E) (exp : Occ W E → Bool) :
    (∀ op ∈ (floatOps W E).take 2, op.Plain) ∧ ∃ st, occRunR float32 fl tenthGeo false oneRay exp ((floatOps W E).take 2) (floatKind.init _) = some st := by
  refine ⟨?_, C93_static_never_fails float32 fl tenthGeo ![2, 2] ![4, 4] oneRay exp _ fun op hop => floatOps_defined W E op (List.mem_of_mem_take hop)⟩
  intro op hop
  simp only [floatOps, List.take, List.mem_cons, List.not_mem_nil, or_false] at hop
  rcases hop with rfl | rfl <;> trivial

/-- Non-vacuity of `C93_exact_history`: the points of the visibility-aware scan are well inside of their bundles (the origin is not: it is on a border, but any other origin is fine). -/
example : ∀ p ∈ Spec.quantised tenthGeo (.insert (floatScan Nat ![9 / 32, 9 / 32]) : OccMapOp ℚ 2 Nat (Pt ℚ 2)),
    ∃ b : Idx 2, (∀ i, -2147483648 ≤ b i ∧ b i < 2147483648) ∧ Spec.WellInside ((1 + float32.T.u) ^ 2 * (1 + float32.D.u) - 1) tenthGeo.r b p := by
  intro p hp
  have : p = ![9 / 32, 9 / 32] := by simpa [Spec.quantised, Spec.scanned, floatScan, tenthGeo] using hp
  refine ⟨![5, 5], by decide, ?_⟩
  rw [this]
  unfold Spec.WellInside
  decide +kernel

/-- Non-vacuity of `C77_exact_history`: the same point offered to an NDT map. -/
example : ∀ p ∈ Spec.offered tenthGeo [.insert id [![9 / 32, 9 / 32]]],
    ∃ b : Idx 2, (∀ i, -2147483648 ≤ b i ∧ b i < 2147483648) ∧ Spec.WellInside ((1 + float32.T.u) ^ 2 * (1 + float32.D.u) - 1) tenthGeo.r b p := by
  intro p hp
  have : p = ![9 / 32, 9 / 32] := by simpa [Spec.offered, tenthGeo] using hp
  refine ⟨![5, 5], by decide, ?_⟩
  rw [this]
  unfold Spec.WellInside
  decide +kernel

/-- Non-vacuity of the theorems for powers of two: resolution 1/4, floats 0.1f (which is on no border). -/
example : ∀ p ∈ Spec.offered { r := (2 : ℚ) ^ (-2 : Int), toMap := id, normal := fun _ => true } [.insert id [![tenth, -tenth]]],
    (∀ i, toBits 24 (p i) = p i) ∧ ∃ b : Idx 2, (∀ i, -2147483648 ≤ b i ∧ b i < 2147483648) ∧ Spec.InBundle ((2 : ℚ) ^ (-2 : Int)) b p := by
  intro p hp
  have : p = ![tenth, -tenth] := by simpa [Spec.offered] using hp
  subst this
  refine ⟨by decide +kernel, ![0, -1], by decide, fun i => ?_⟩
  fin_cases i <;> norm_num [tenth]

/-- **C93 (refuted part).** Exact containment (C27) fails in an occupancy map of floats with resolution 0.1: the float (0.25, 0.25) counts as a hit in the cell `(3, 3)` of grid 3, which begins beyond it. -/
theorem C93_exact_cell_refuted (exp : Occ Nat (Pt ℚ 2) → Bool) :
    ∃ st, occRunR float32 (occFlavour ℚ 2) tenthGeo floatKind.dyn oneRay exp ((floatOps _ _).take 2) (floatKind.init _) = some st ∧
      ∃ o, st.content 3 ![3, 3] = some o ∧ (![1 / 4, 1 / 4] : Pt ℚ 2) ∈ o.samples ∧ ¬ Spec.InCell tenthGeo.r 3 ![3, 3] (![1 / 4, 1 / 4] : Pt ℚ 2) := by
  classical
  obtain ⟨hp, st, hst⟩ := floatPlain_run (occFlavour ℚ 2) exp
  refine ⟨st, hst, ?_⟩
  have e := (C93_occupancy_counts floatKind float32 tenthGeo oneRay exp _ hp st hst 3 (by decide) ![3, 3]).1
  have hm : (![1 / 4, 1 / 4] : Pt ℚ 2) ∈ ((st.content 3 ![3, 3]).getD Occ.new).samples := by
    rw [e, mem_sum_iff]
    refine ⟨_, List.mem_map.2 ⟨floatScan Nat ![1 / 4, 1 / 4], by simp [floatOps, scansOf], rfl⟩, ?_⟩
    unfold Spec.assignedTo
    rw [Multiset.mem_filter]
    refine ⟨by simp [Spec.scanned, floatScan, tenthGeo], ![5, 5], float_point_index, ?_, by decide⟩
    show ∀ a, _ ∧ _
    decide
  cases hx : st.content 3 ![3, 3] with
  | none => rw [hx] at hm; exact absurd hm (Multiset.notMem_zero _)
  | some o =>
    rw [hx] at hm
    refine ⟨o, rfl, hm, fun h => absurd (h 0).1 ?_⟩
    have : Nat.testBit 3 0 = true := by decide
    simp [Spec.shift, this, tenthGeo, tenth]; norm_num

end Ndt
