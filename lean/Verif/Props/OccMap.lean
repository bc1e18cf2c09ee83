import Verif.Proofs.OccRun
import Verif.Proofs.Sampling
import Verif.Props.Gridmap
import Verif.Props.Occupancy

/-! Property theorems C27–C30 and the versions of C16 and C24 for occupancy maps. -/

namespace Ndt
open St

section
variable {K : Type} [Field K] [LinearOrder K] [IsStrictOrderedRing K] [FloorRing K] {d : Nat}

/-- the `insert` calls of a history -/
def scansOf {W E : Type} : List (OccMapOp K d W E) → List (Scan K d W)
  | [] => []
  | .insert s :: l => s :: scansOf l
  | _ :: l => scansOf l

/-! ### flavours -/

omit [LinearOrder K] [IsStrictOrderedRing K] [FloorRing K] in
theorem occFlavour_mean (s : Multiset (Pt K d)) : (occFlavour K d).mean (s.map (occFlavour K d).sample) = Spec.meanOf s := by
  funext a; simp [occFlavour, Spec.meanOf]

omit [LinearOrder K] [IsStrictOrderedRing K] [FloorRing K] in
theorem weightedFlavour_amount (s : Multiset (Pt K d)) : (weightedFlavour K d).amount (s.map (weightedFlavour K d).sample) = (s.card : K) := by
  simp [weightedFlavour]

omit [LinearOrder K] [IsStrictOrderedRing K] [FloorRing K] in
theorem weightedFlavour_mean (s : Multiset (Pt K d)) : (weightedFlavour K d).mean (s.map (weightedFlavour K d).sample) = Spec.meanOf s := by
  funext a; simp [weightedFlavour, Spec.meanOf]

section generic
variable {W E : Type} [AddCommMonoid W]

theorem run_free (fl : Flavour K d W E) (k : Kind d) (g : Geo K d) (defRay : Pt K d → Pt K d → List (Idx d)) (exp : Occ W E → Bool)
    (ops : List (OccMapOp K d W E)) (hp : ∀ op ∈ ops, op.Plain) (st : St k.backend (Occ W E))
    (h : occRun fl g k.dyn defRay exp ops (k.init _) = some st) (c : Nat) (hc : c < 2 ^ d) (i : Idx d) :
    ((st.content c i).getD Occ.new).free = ((scansOf ops).map fun s =>
      (((insertEffects fl g ((k.init (Occ W E)).abs.valid k.dyn) s).filter (fun e => decide (generateIndex e.1 c = i))).map Prod.snd).sum.free).sum := by
  have e := occRun_spec k.lawful fl g k.dyn defRay exp ops _ st k.init_rinv hp h c hc i
  have e0 : (k.init (Occ W E)).abs.val c i = 0 := by unfold Abs.val; rw [Kind.init_content]; rfl
  rw [e0, zero_add] at e
  refine (congrArg Occ.free (show _ = st.abs.val c i from rfl)).trans ?_
  rw [e]
  refine (map_list_sum Occ.freeHom _).trans ?_
  rw [List.map_map]
  clear e h hp
  induction ops with
  | nil => rfl
  | cons op ops ih =>
    rw [List.map_cons, List.sum_cons, ih]
    cases op with
    | insert s => rfl
    | insertVisible s o v => exact zero_add _
    | core op => exact zero_add _

theorem run_samples (fl : Flavour K d W E) (k : Kind d) (g : Geo K d) (hr : 0 < g.r) (defRay : Pt K d → Pt K d → List (Idx d)) (exp : Occ W E → Bool)
    (ops : List (OccMapOp K d W E)) (hp : ∀ op ∈ ops, op.Plain) (st : St k.backend (Occ W E))
    (h : occRun fl g k.dyn defRay exp ops (k.init _) = some st) (c : Nat) (hc : c < 2 ^ d) (i : Idx d) [DecidablePred (Spec.InCell (d := d) g.r c i)] :
    ((st.content c i).getD Occ.new).samples =
      ((((scansOf ops).map fun s => Spec.hits g k s).sum).filter (Spec.InCell g.r c i)).map fl.sample := by
  have e := occRun_spec k.lawful fl g k.dyn defRay exp ops _ st k.init_rinv hp h c hc i
  have e0 : (k.init (Occ W E)).abs.val c i = 0 := by unfold Abs.val; rw [Kind.init_content]; rfl
  rw [e0, zero_add] at e
  refine (congrArg Occ.samples (show _ = st.abs.val c i from rfl)).trans ?_
  rw [e]
  refine (map_list_sum Occ.samplesHom _).trans ?_
  rw [List.map_map]
  clear e h hp
  induction ops with
  | nil => rfl
  | cons op ops ih =>
    rw [List.map_cons, List.sum_cons, ih]
    cases op with
    | insert s =>
      simp only [scansOf, List.map_cons, List.sum_cons, Multiset.filter_add, Multiset.map_add]
      refine congrArg (· + _) ?_
      refine (insertEffects_samples fl g _ s (fun b => decide (generateIndex b c = i))).trans ?_
      refine congrArg (Multiset.map fl.sample) ?_
      unfold Spec.hits
      rw [← accList_eq (Occ W E) g hr k, Multiset.filter_coe]
      refine congrArg _ (List.filter_congr fun p _ => ?_)
      rw [Bool.eq_iff_iff, decide_eq_true_iff, decide_eq_true_iff]
      exact C01_point_in_selected_cell hr p c i
    | insertVisible s o v => exact zero_add _
    | core op => exact zero_add _

end generic

/-! ### C27 -/

open scoped Classical in
/-- **C27** (occupancy maps). After any history of `insert` calls (and lookups, allocations, expansions), with any ray tracer and any hash order in every call, the
distribution of grid `c` at `i` (absent = new) contains exactly the hits of all scans inside of its cell, and its free counter is the sum over all scans and all rays of the number of
hits the ray stands for times the number of accepted ray cells inside of the cell. -/
theorem C27_occupancy_counts (k : Kind d) (g : Geo K d) (hr : 0 < g.r) (defRay : Pt K d → Pt K d → List (Idx d)) (exp : Occ Nat (Pt K d) → Bool)
    (ops : List (OccMapOp K d Nat (Pt K d))) (hp : ∀ op ∈ ops, op.Plain) (st : St k.backend (Occ Nat (Pt K d)))
    (h : occRun (occFlavour K d) g k.dyn defRay exp ops (k.init _) = some st) (c : Nat) (hc : c < 2 ^ d) (i : Idx d) :
    ((st.content c i).getD Occ.new).numFree = ((scansOf ops).map fun s => Spec.misses false g k s c i).sum ∧
    ((st.content c i).getD Occ.new).samples = (((scansOf ops).map fun s => Spec.hits g k s).sum).filter (Spec.InCell g.r c i) ∧
    ((st.content c i).getD Occ.new).numOccupied = ((((scansOf ops).map fun s => Spec.hits g k s).sum).filter (Spec.InCell g.r c i)).card := by
  have h2 := run_samples (occFlavour K d) k g hr defRay exp ops hp st h c hc i
  rw [show (occFlavour K d).sample = id from rfl, Multiset.map_id] at h2
  refine ⟨?_, h2, by rw [Occ.numOccupied_eq, h2]⟩
  refine (run_free (occFlavour K d) k g defRay exp ops hp st h c hc i).trans ?_
  refine congrArg List.sum (List.map_congr_left fun s _ => ?_)
  rw [insertEffects_misses (occFlavour K d) occFlavour_mean g hr k s c i]
  unfold Spec.misses
  refine Finset.sum_congr rfl fun b _ => ?_
  rw [smul_eq_mul, show (occFlavour K d).sample = id from rfl, Multiset.map_id]
  rfl

open scoped Classical in
/-- **C27** (weighted occupancy maps). Every point has weight 1; ray cells that are hit bundles of the scan do not count (C28). -/
theorem C27_weighted_counts (k : Kind d) (g : Geo K d) (hr : 0 < g.r) (defRay : Pt K d → Pt K d → List (Idx d)) (exp : Occ K (Pt K d × K) → Bool)
    (ops : List (OccMapOp K d K (Pt K d × K))) (hp : ∀ op ∈ ops, op.Plain) (st : St k.backend (Occ K (Pt K d × K)))
    (h : occRun (weightedFlavour K d) g k.dyn defRay exp ops (k.init _) = some st) (c : Nat) (hc : c < 2 ^ d) (i : Idx d) :
    ((st.content c i).getD Occ.new).numFree = (((scansOf ops).map fun s => Spec.misses true g k s c i).sum : Nat) ∧
    ((st.content c i).getD Occ.new).samples =
      ((((scansOf ops).map fun s => Spec.hits g k s).sum).filter (Spec.InCell g.r c i)).map (fun p => (p, 1)) ∧
    ((st.content c i).getD Occ.new).weightOccupied = ((((scansOf ops).map fun s => Spec.hits g k s).sum).filter (Spec.InCell g.r c i)).card := by
  have h2 := run_samples (weightedFlavour K d) k g hr defRay exp ops hp st h c hc i
  refine ⟨?_, h2, ?_⟩
  · refine (run_free (weightedFlavour K d) k g defRay exp ops hp st h c hc i).trans ?_
    rw [Nat.cast_list_sum, List.map_map]
    refine congrArg List.sum (List.map_congr_left fun s _ => ?_)
    rw [insertEffects_misses (weightedFlavour K d) weightedFlavour_mean g hr k s c i]
    rw [Function.comp_apply, Spec.misses, Nat.cast_sum]
    refine Finset.sum_congr rfl fun b _ => ?_
    rw [weightedFlavour_amount, nsmul_eq_mul, Nat.cast_mul]
    rfl
  · have e : ∀ o : Occ K (Pt K d × K), o.weightOccupied = (o.samples.map Prod.snd).sum := by
      intro o; unfold Occ.weightOccupied Occ.samples; cases o.data <;> simp
    rw [e, h2]
    simp [weightedFlavour]

/-- **C27** (consistency). After any history, including `insertVisible`, no map distribution owns a distribution without samples: a distribution object exists iff there are hits. -/
theorem C27_no_empty_distribution {W E : Type} [AddCommMonoid W] (fl : Flavour K d W E) (k : Kind d) (g : Geo K d) (defRay : Pt K d → Pt K d → List (Idx d))
    (exp : Occ W E → Bool) (ops : List (OccMapOp K d W E)) (st : St k.backend (Occ W E)) (h : occRun fl g k.dyn defRay exp ops (k.init _) = some st)
    (c : Nat) (hc : c < 2 ^ d) (i : Idx d) (o : Occ W E) (ho : st.content c i = some o) : o.data = none ↔ o.samples = 0 := by
  have e0 : (k.init (Occ W E)).abs.val c i = 0 := by unfold Abs.val; rw [Kind.init_content]; rfl
  have := occRun_ne k.lawful fl g k.dyn defRay exp c hc i ops _ st k.init_rinv h (by rw [e0]; intro h; cases h)
  have ev : st.abs.val c i = o := by show (st.content c i).getD _ = o; rw [ho]; rfl
  rw [ev] at this
  unfold Occ.samples
  cases hd : o.data with
  | none => simp
  | some s =>
    rw [hd] at this
    simp only [reduceCtorEq, false_iff]
    intro hs; exact this (congrArg some hs)

open scoped Classical in
/-- **C27** (occupancy values). After any history of `insert` calls, the occupancy of every distribution is the documented function of the exact numbers of misses and hits of the
scans (as long as the counters have not overflowed). -/
theorem C27_occupancy_value (k : Kind d) (g : Geo K d) (hr : 0 < g.r) (defRay : Pt K d → Pt K d → List (Idx d)) (exp : Occ Nat (Pt K d) → Bool)
    (ops : List (OccMapOp K d Nat (Pt K d))) (hp : ∀ op ∈ ops, op.Plain) (st : St k.backend (Occ Nat (Pt K d)))
    (h : occRun (occFlavour K d) g k.dyn defRay exp ops (k.init _) = some st) (c : Nat) (hc : c < 2 ^ d) (i : Idx d) (o : Occ Nat (Pt K d))
    (ho : st.content c i = some o) (m : Ivm)
    (hw : ((scansOf ops).map fun s => Spec.misses false g k s c i).sum + ((((scansOf ops).map fun s => Spec.hits g k s).sum).filter (Spec.InCell g.r c i)).card ≤ 2 ^ 64) :
    o.occupancy m = occupancySpec m ((scansOf ops).map fun s => Spec.misses false g k s c i).sum
      ((((scansOf ops).map fun s => Spec.hits g k s).sum).filter (Spec.InCell g.r c i)).card := by
  obtain ⟨h1, h2, h3⟩ := C27_occupancy_counts k g hr defRay exp ops hp st h c hc i
  have hn := C27_no_empty_distribution (occFlavour K d) k g defRay exp ops st h c hc i o ho
  rw [ho, Option.getD_some] at h1 h2 h3
  rw [← h1, ← h3] at hw ⊢
  rw [Occ.numOccupied_eq] at hw ⊢
  unfold Occ.numFree at hw ⊢
  unfold occupancySpec Occ.occupancy
  by_cases e : o.samples = 0
  · rw [hn.2 e, e]; simp
  · have hd : o.data = some o.samples := by
      unfold Occ.samples at e ⊢
      cases hx : o.data with
      | none => rw [hx] at e; exact absurd rfl e
      | some s => rfl
    rw [hd]
    have hc : 0 < o.samples.card := Multiset.card_pos.2 e
    rw [if_neg (by omega)]
    simp only
    rw [wrapMinusOne_eq hc hw]
    unfold logOddsFrom
    rw [Nat.cast_sub (by omega), Nat.cast_add]
    norm_num

/-- states of an occupancy map reachable from a new map -/
def OccReachable {W E : Type} [AddCommMonoid W] (fl : Flavour K d W E) (k : Kind d) (g : Geo K d) (defRay : Pt K d → Pt K d → List (Idx d)) (exp : Occ W E → Bool)
    (st : St k.backend (Occ W E)) : Prop := ∃ ops, occRun fl g k.dyn defRay exp ops (k.init _) = some st

omit [IsStrictOrderedRing K] in
theorem OccReachable.rinv {W E : Type} [AddCommMonoid W] {fl : Flavour K d W E} {k : Kind d} {g : Geo K d} {defRay : Pt K d → Pt K d → List (Idx d)}
    {exp : Occ W E → Bool} {st : St k.backend (Occ W E)} (h : OccReachable fl k g defRay exp st) : RInv k.lawful k.dyn st := by
  obtain ⟨ops, h⟩ := h
  exact (occRun_inv k.lawful fl g k.dyn defRay exp ops _ st k.init_rinv h).1

omit [IsStrictOrderedRing K] in
theorem OccReachable.keeps {W E : Type} [AddCommMonoid W] {fl : Flavour K d W E} {k : Kind d} {g : Geo K d} {defRay : Pt K d → Pt K d → List (Idx d)}
    {exp : Occ W E → Bool} {st : St k.backend (Occ W E)} (h : OccReachable fl k g defRay exp st) : Abs.Keeps k.dyn (k.init (Occ W E)).abs st.abs := by
  obtain ⟨ops, h⟩ := h
  exact (occRun_inv k.lawful fl g k.dyn defRay exp ops _ st k.init_rinv h).2

omit [IsStrictOrderedRing K] in
theorem collect_perm (g : Geo K d) (ok : Idx d → Bool) (pose : Pt K d → Pt K d) (cloud cloud' : List (Pt K d)) (hp : cloud.Perm cloud') :
    collect g ok pose cloud = collect g ok pose cloud' := by
  have hacc : (accList g ok pose cloud).Perm (accList g ok pose cloud') := by
    unfold accList; exact (((hp.map pose).filter _).map _).filter _
  have hk : (collect g ok pose cloud).map Prod.fst = (collect g ok pose cloud').map Prod.fst := by
    refine List.Perm.eq_of_pairwise (le := fun i j => lexLt i j = true) ?_ (collect_sorted g ok pose cloud) (collect_sorted g ok pose cloud') ?_
    · intro a b _ _ h1 h2
      exact absurd (lexLt_trans _ _ _ h1 h2) (by rw [lexLt_irrefl]; simp)
    · refine (List.perm_ext_iff_of_nodup (collect_nodup ..) (collect_nodup ..)).2 fun x => ?_
      rw [mem_collect_keys, mem_collect_keys]
      exact exists_congr fun p => and_congr_left fun _ => hacc.mem_iff
  have hv : ∀ c : List (Pt K d), collect g ok pose c = ((collect g ok pose c).map Prod.fst).map fun b =>
      (b, (((accList g ok pose c).filter (fun p => decide (toBundleIndex g.r p = b)) : List (Pt K d)) : Multiset (Pt K d))) := by
    intro c
    rw [List.map_map]
    conv_lhs => rw [← List.map_id (collect g ok pose c)]
    refine List.map_congr_left fun e he => ?_
    exact Prod.ext rfl (collect_value g ok pose c e he)
  rw [hv cloud, hv cloud', hk]
  refine List.map_congr_left fun b _ => Prod.ext rfl ?_
  exact Multiset.coe_eq_coe.2 (hacc.filter _)

omit [IsStrictOrderedRing K] in
/-- **C27** (order irrelevance). On any reachable occupancy map of either class, two scans with the same pose, the same ray tracer and the same points in any order, processed with
different hash iteration orders, have the same outcome and lead to indistinguishable maps. -/
theorem C27_order_irrelevant {W E : Type} [AddCommMonoid W] (fl : Flavour K d W E) (k : Kind d) (g : Geo K d) (defRay : Pt K d → Pt K d → List (Idx d))
    (exp : Occ W E → Bool) (st : St k.backend (Occ W E)) (hst : OccReachable fl k g defRay exp st) (s s' : Scan K d W) (hpose : s.pose = s'.pose)
    (hray : s.ray = s'.ray) (hcloud : s.cloud.Perm s'.cloud) (t : St k.backend (Occ W E)) (h : occInsert fl g k.dyn s st = some t) :
    ∃ t', occInsert fl g k.dyn s' st = some t' ∧ SameMap t t' := by
  have hI := hst.rinv
  rw [occInsert_eq k.lawful fl g k.dyn s st hI] at h
  rw [occInsert_eq k.lawful fl g k.dyn s' st hI]
  have hcol : occCollect fl g (st.valid k.dyn) s.pose s.cloud = occCollect fl g (st.valid k.dyn) s'.pose s'.cloud := by
    unfold occCollect
    rw [hpose, collect_perm g _ s'.pose _ _ (hcloud.filter fun p => g.normal p)]
  have hperm : (insertEffects fl g (st.valid k.dyn) s).Perm (insertEffects fl g (st.valid k.dyn) s') := by
    unfold insertEffects
    rw [hcol]
    refine List.Perm.append_left _ (List.Perm.map _ ?_)
    unfold insertFree
    rw [hcol, hray, hpose]
    exact (s.order_perm _).trans (s'.order_perm _).symm
  obtain ⟨a1, a2, a3, a4, a5⟩ := occAdd_spec k.lawful k.dyn _ st t hI h
  obtain ⟨t', ht'⟩ := occAdd_total k.lawful k.dyn (insertEffects fl g (st.valid k.dyn) s') st hI (fun e he => a5 e (hperm.mem_iff.2 he))
  obtain ⟨b1, b2, b3, b4, _⟩ := occAdd_spec k.lawful k.dyn _ st t' hI ht'
  refine ⟨t', ht', SameMap.of_abs ?_⟩
  refine Abs.ext_of_ainv a1.ainv b1.ainv ?_ ?_ (a2.okB.trans b2.okB.symm) (a2.okD.trans b2.okD.symm) ?_
  · funext bj
    rw [a4, b4]
    have hm : bj ∈ (insertEffects fl g (st.valid k.dyn) s).map Prod.fst ↔ bj ∈ (insertEffects fl g (st.valid k.dyn) s').map Prod.fst :=
      (hperm.map Prod.fst).mem_iff
    by_cases x : bj ∈ (insertEffects fl g (st.valid k.dyn) s).map Prod.fst
    · rw [if_pos x, if_pos (hm.1 x)]
    · rw [if_neg x, if_neg (fun y => x (hm.2 y))]
  · intro c hc i
    rw [a3 c hc i, b3 c hc i]
    exact congrArg (_ + ·) (((hperm.filter _).map _).sum_eq)
  · intro hd
    exact ⟨(a2.static hd).1.trans (b2.static hd).1.symm, (a2.static hd).2.trans (b2.static hd).2.symm⟩

/-! ### C16 for occupancy maps -/

omit [IsStrictOrderedRing K] in
/-- **C16** (occupancy maps). No history of operations on a static occupancy map of either class, including the visibility-aware insertion with its neighbour lookups, accesses an
array outside of its size and offset or dereferences a null distribution. -/
theorem C16_static_occupancy_in_bounds {W E : Type} [AddCommMonoid W] (fl : Flavour K d W E) (size : Fin d → Nat) (lo : Idx d) (g : Geo K d)
    (defRay : Pt K d → Pt K d → List (Idx d)) (exp : Occ W E → Bool) (ops : List (OccMapOp K d W E)) :
    (occRun fl g false defRay exp ops (staticInit d (Occ W E) size lo)).isSome = true := by
  obtain ⟨st, h⟩ := occRun_total (arrayLawful d) fl g false defRay exp ops ((Kind.static size lo).init (Occ W E)) (Kind.init_rinv (.static size lo))
    (fun i h => Kind.static_good size lo i h)
  exact Option.isSome_iff_exists.2 ⟨st, h⟩

/-! ### C24 for occupancy maps -/

/-- **C24** (occupancy maps). After any history on a map of either class, sampling is the mean over the bins of the bundle of density times occupancy (0 for a bin without hits), and 0
outside of the region or if the bundle is not allocated. -/
theorem C24_occupancy_sample_is_mean {W E M : Type} [AddCommMonoid W] (fl : Flavour K d W E) (k : Kind d) (g : Geo K d) (hr : 0 < g.r)
    (defRay : Pt K d → Pt K d → List (Idx d)) (exp : Occ W E → Bool) (st : St k.backend (Occ W E)) (hst : OccReachable fl k g defRay exp st)
    (dens : Multiset E → Pt K d → K) (occ : M → Occ W E → K) (m : M) (p : Pt K d) (b : Idx d) (hb : Spec.InBundle g.r b (g.toMap p)) (x : K)
    (hx : occSampleNNAt g k.dyn dens occ p (some m) st = .ok (some x)) :
    (Spec.Region g.r k (g.toMap p) ∧ b ∈ st.bundleIndices →
      ∃ o : Nat → Occ W E, (∀ c, c < 2 ^ d → st.binContent b c = some (o c)) ∧
        x = (∑ c ∈ Finset.range (2 ^ d), (o c).data.elim 0 fun s => dens s (g.toMap p) * occ m (o c)) / 2 ^ d) ∧
    (¬ (Spec.Region g.r k (g.toMap p) ∧ b ∈ st.bundleIndices) → x = 0) := by
  have hI := hst.rinv
  have hbi : toBundleIndex g.r (g.toMap p) = b := (C01_bundle_contains_point hr _ b).2 hb
  unfold occSampleNNAt occSampleNN at hx
  simp only [Except.ok.injEq] at hx
  obtain ⟨h1, h2⟩ := (sampleWith_spec k.lawful k.dyn _ _ _ st hI).1 x hx
  have hval : st.valid k.dyn (toBundleIndex g.r (g.toMap p)) = true ↔ Spec.Region g.r k (g.toMap p) := by
    rw [← valid_iff_region (Occ W E) g.r hr k]
    show st.abs.valid _ _ = true ↔ _
    rw [hst.keeps.valid]
  have hal : toBundleIndex g.r (g.toMap p) ∈ st.abs.allocated ↔ b ∈ st.bundleIndices := by
    rw [hbi, mem_allocated_iff, mem_bundleIndices k.lawful st hI.inv]
  rw [hval, hal] at h1 h2
  refine ⟨fun hh => ⟨fun c => st.abs.val c (generateIndex b c), ?_, ?_⟩, h2⟩
  · intro c hc
    obtain ⟨bb, hbb⟩ := Option.isSome_iff_exists.1 ((mem_bundleIndices k.lawful st hI.inv b).1 hh.2)
    obtain ⟨a, h3, h4⟩ := hI.inv.complete b bb hbb c hc
    unfold binContent
    rw [hbb]
    simp only [Option.bind_some, h3, Option.map_some]
    refine congrArg some ?_
    show _ = (st.content c (generateIndex b c)).getD default
    unfold St.content; rw [h4]; rfl
  · rw [h1 hh, div_eq_inv_mul, Finset.mul_sum]
    refine Finset.sum_congr rfl fun c hc => ?_
    rw [divCount_eq, one_div, hbi]
    refine congrArg (((2 : K) ^ d)⁻¹ * ·) ?_
    unfold occValue
    cases hd : (st.abs.val c (generateIndex b c)).data with
    | none => simp
    | some s => simp

/-- **C24** (occupancy maps, range). If densities and occupancies are in `[0, 1]`, so is the sample. -/
theorem C24_occupancy_sample_in_unit_interval {W E M : Type} [AddCommMonoid W] (fl : Flavour K d W E) (k : Kind d) (g : Geo K d) (hr : 0 < g.r)
    (defRay : Pt K d → Pt K d → List (Idx d)) (exp : Occ W E → Bool) (st : St k.backend (Occ W E)) (hst : OccReachable fl k g defRay exp st)
    (dens : Multiset E → Pt K d → K) (hd : ∀ s q, 0 ≤ dens s q ∧ dens s q ≤ 1) (occ : M → Occ W E → K) (m : M) (ho : ∀ o, 0 ≤ occ m o ∧ occ m o ≤ 1)
    (p : Pt K d) (x : K) (hx : occSampleNNAt g k.dyn dens occ p (some m) st = .ok (some x)) : 0 ≤ x ∧ x ≤ 1 := by
  have hb := (C01_bundle_contains_point hr (g.toMap p) (toBundleIndex g.r (g.toMap p))).1 rfl
  obtain ⟨h1, h2⟩ := C24_occupancy_sample_is_mean fl k g hr defRay exp st hst dens occ m p _ hb x hx
  by_cases hh : Spec.Region g.r k (g.toMap p) ∧ toBundleIndex g.r (g.toMap p) ∈ st.bundleIndices
  · obtain ⟨o, _, rfl⟩ := h1 hh
    have hq : ∀ c, 0 ≤ ((o c).data.elim 0 fun s => dens s (g.toMap p) * occ m (o c)) ∧
        ((o c).data.elim 0 fun s => dens s (g.toMap p) * occ m (o c)) ≤ 1 := by
      intro c
      cases (o c).data
      · exact ⟨le_refl _, zero_le_one⟩
      · exact ⟨mul_nonneg (hd _ _).1 (ho _).1, mul_le_one₀ (hd _ _).2 (ho _).1 (ho _).2⟩
    have hpow : (0 : K) < 2 ^ d := by positivity
    refine ⟨div_nonneg (Finset.sum_nonneg fun c _ => (hq c).1) hpow.le, ?_⟩
    rw [div_le_one hpow]
    refine le_trans (Finset.sum_le_sum fun c _ => (hq c).2) ?_
    simp
  · rw [h2 hh]; exact ⟨le_refl _, zero_le_one⟩

/-! ### C28 -/

open scoped Classical in
/-- **C28** (weighted maps). One `insert` call on a reachable weighted map adds to the free weight of a distribution only misses of ray cells that are not hit bundles of the scan. -/
theorem C28_weighted_hit_not_free (k : Kind d) (g : Geo K d) (hr : 0 < g.r) (defRay : Pt K d → Pt K d → List (Idx d)) (exp : Occ K (Pt K d × K) → Bool)
    (st : St k.backend (Occ K (Pt K d × K))) (hst : OccReachable (weightedFlavour K d) k g defRay exp st) (s : Scan K d K)
    (t : St k.backend (Occ K (Pt K d × K))) (h : occInsert (weightedFlavour K d) g k.dyn s st = some t) (c : Nat) (hc : c < 2 ^ d) (i : Idx d) :
    ((t.content c i).getD Occ.new).numFree = ((st.content c i).getD Occ.new).numFree + (Spec.misses true g k s c i : Nat) ∧
    ((∀ b, Spec.BundleInCell g.r b c i → Spec.ValidBundle k b → b ∈ Spec.hitBundles g k s) →
      ((t.content c i).getD Occ.new).numFree = ((st.content c i).getD Occ.new).numFree) := by
  have hI := hst.rinv
  rw [occInsert_eq k.lawful _ g k.dyn s st hI] at h
  have hv : st.valid k.dyn = (k.init (Occ K (Pt K d × K))).abs.valid k.dyn := funext hst.keeps.valid
  have h3 := (occAdd_spec k.lawful k.dyn _ st t hI h).2.2.1 c hc i
  have key : ((t.content c i).getD Occ.new).numFree = ((st.content c i).getD Occ.new).numFree + (Spec.misses true g k s c i : Nat) := by
    refine (congrArg Occ.free (show _ = t.abs.val c i from rfl)).trans ?_
    rw [h3, Occ.add_free]
    refine congrArg₂ (· + ·) rfl ?_
    rw [hv, insertEffects_misses (weightedFlavour K d) weightedFlavour_mean g hr k s c i]
    rw [Spec.misses, Nat.cast_sum]
    refine Finset.sum_congr rfl fun b _ => ?_
    rw [weightedFlavour_amount, nsmul_eq_mul, Nat.cast_mul]
    rfl
  refine ⟨key, fun hall => ?_⟩
  rw [key]
  have : Spec.misses true g k s c i = 0 := by
    unfold Spec.misses
    refine Finset.sum_eq_zero fun b _ => ?_
    rw [List.filter_eq_nil_iff.2]
    · simp
    · intro x _
      rw [decide_eq_true_iff]
      rintro ⟨h1, h2, h3⟩
      exact h3 rfl (hall x h2 h1)
  rw [this]
  simp

end
end Ndt
