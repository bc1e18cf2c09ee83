import Verif.Spec.OccHistory
import Verif.Props.VisibleScan

/-! Property theorems C27 for histories with visibility-aware insertions. -/

namespace Ndt
open St

section
variable {K : Type} [Field K] [LinearOrder K] [IsStrictOrderedRing K] [FloorRing K] {d : Nat}

omit [FloorRing K] in
open scoped Classical in
theorem hitsOn_le {W : Type} (g : Geo K d) (k : Kind d) (s : Scan K d W) (S : Finset (Idx d)) (c : Nat) (i : Idx d) :
    Spec.hitsOn g k s S c i ≤ (Spec.hits g k s).filter (Spec.InCell g.r c i) := by
  unfold Spec.hitsOn
  refine Multiset.le_filter.2 ⟨Multiset.filter_le _ _, fun p hp => ?_⟩
  exact (Multiset.mem_filter.1 hp).2.1

open scoped Classical in
theorem hitsOn_all {W : Type} (g : Geo K d) (hr : 0 < g.r) (k : Kind d) (s : Scan K d W) (c : Nat) (i : Idx d) :
    Spec.hitsOn g k s (Spec.hitBundles g k s) c i = (Spec.hits g k s).filter (Spec.InCell g.r c i) := by
  unfold Spec.hitsOn
  refine Multiset.filter_congr fun p hp => ⟨fun h => h.1, fun h => ⟨h, fun a => ⌊p a / (g.r / 2)⌋, ?_, fun a => ?_⟩⟩
  · unfold Spec.hitBundles
    rw [Multiset.mem_toFinset]
    exact Multiset.mem_map.2 ⟨p, hp, rfl⟩
  · have h2 : 0 < g.r / 2 := by linarith
    refine ⟨(le_div_iff₀ h2).1 (Int.floor_le _), (div_lt_iff₀ h2).1 (Int.lt_floor_add_one _)⟩

section generic
variable {W E : Type} [AddCommMonoid W]

/-- the misses of a scan in terms of the weights of the class -/
noncomputable def freeBy (fl : Flavour K d W E) (skip : Bool) (g : Geo K d) (k : Kind d) (s : Scan K d W) (c : Nat) (i : Idx d) : W :=
  open scoped Classical in
  ∑ b ∈ Spec.hitBundles g k s, ((Spec.rayOf g k s b).filter fun x => decide (Spec.ValidBundle k x ∧ Spec.BundleInCell g.r x c i ∧
    (skip = true → x ∉ Spec.hitBundles g k s))).length • fl.amount ((Spec.hitsIn g k s b).map fl.sample)

/-- as `Spec.missesBy` -/
noncomputable def opFree (fl : Flavour K d W E) (defRay : Pt K d → Pt K d → List (Idx d)) (g : Geo K d) (k : Kind d) (c : Nat) (i : Idx d) : OccMapOp K d W E × Finset (Idx d) × Bool → W
  | (.insert s, _) => freeBy fl fl.eraseHits g k s c i
  | (.insertVisible s (some _) (some _), o) => if o.2 then freeBy fl true g k s c i else 0
  | (.insertVisible s _ _, _) => freeBy fl fl.eraseHits g k (if fl.fallbackDefault then { s with ray := defRay } else s) c i
  | (.core _, _) => 0

theorem insert_contribution (fl : Flavour K d W E) (hmean : ∀ s : Multiset (Pt K d), fl.mean (s.map fl.sample) = Spec.meanOf s) (k : Kind d) (g : Geo K d) (hr : 0 < g.r)
    (defRay : Pt K d → Pt K d → List (Idx d)) (exp : Occ W E → Bool) (st t : St k.backend (Occ W E)) (hst : OccReachable fl k g defRay exp st) (s : Scan K d W)
    (h : occInsert fl g k.dyn s st = some t) (c : Nat) (hc : c < 2 ^ d) (i : Idx d) :
    ((t.content c i).getD Occ.new).samples = ((st.content c i).getD Occ.new).samples + (Spec.hitsOn g k s (Spec.hitBundles g k s) c i).map fl.sample ∧
    ((t.content c i).getD Occ.new).free = ((st.content c i).getD Occ.new).free + freeBy fl fl.eraseHits g k s c i := by
  classical
  have hI := hst.rinv
  have hv : st.valid k.dyn = (k.init (Occ W E)).abs.valid k.dyn := funext hst.keeps.valid
  rw [occInsert_eq k.lawful fl g k.dyn s st hI] at h
  have e := (occAdd_spec k.lawful k.dyn _ st t hI h).2.2.1 c hc i
  rw [hv] at e
  constructor
  · refine (congrArg Occ.samples e).trans ?_
    rw [Occ.samples_add]
    refine congrArg (_ + ·) ?_
    refine (insertEffects_samples fl g _ s (fun b => decide (generateIndex b c = i))).trans ?_
    rw [hitsOn_all g hr k s c i]
    refine congrArg (Multiset.map fl.sample) ?_
    unfold Spec.hits
    rw [← accList_eq (Occ W E) g hr k, Multiset.filter_coe]
    refine congrArg _ (List.filter_congr fun p _ => ?_)
    rw [Bool.eq_iff_iff, decide_eq_true_iff, decide_eq_true_iff]
    exact C01_point_in_selected_cell hr p c i
  · refine (congrArg Occ.free e).trans ?_
    refine congrArg₂ (· + ·) rfl ?_
    exact insertEffects_misses fl hmean g hr k s c i

theorem step_contribution (fl : Flavour K d W E) (hmean : ∀ s : Multiset (Pt K d), fl.mean (s.map fl.sample) = Spec.meanOf s) (k : Kind d) (g : Geo K d) (hr : 0 < g.r)
    (defRay : Pt K d → Pt K d → List (Idx d)) (exp : Occ W E → Bool) (st t : St k.backend (Occ W E)) (hst : OccReachable fl k g defRay exp st) (op : OccMapOp K d W E)
    (h : occStep fl g k.dyn defRay exp op st = some t) : ∃ o, Spec.Outcome fl.sample g k st.content st.abs.allocated op o ∧ ∀ c, c < 2 ^ d → ∀ i,
    ((t.content c i).getD Occ.new).samples = ((st.content c i).getD Occ.new).samples + (Spec.hitsBy g k c i (op, o)).map fl.sample ∧
    ((t.content c i).getD Occ.new).free = ((st.content c i).getD Occ.new).free + opFree fl defRay g k c i (op, o) := by
  have fb : ∀ s s' : Scan K d W, Spec.hits g k s' = Spec.hits g k s → occInsert fl g k.dyn s' st = some t → ∀ c, c < 2 ^ d → ∀ i,
      ((t.content c i).getD Occ.new).samples = ((st.content c i).getD Occ.new).samples + (Spec.hitsOn g k s (Spec.hitBundles g k s) c i).map fl.sample ∧
      ((t.content c i).getD Occ.new).free = ((st.content c i).getD Occ.new).free + freeBy fl fl.eraseHits g k s' c i := by
    intro s s' hs h c hc i
    have := insert_contribution fl hmean k g hr defRay exp st t hst s' h c hc i
    have e : Spec.hitsOn g k s' (Spec.hitBundles g k s') c i = Spec.hitsOn g k s (Spec.hitBundles g k s) c i := by
      unfold Spec.hitsOn Spec.hitBundles; rw [hs]
    rw [e] at this
    exact this
  have fb' : ∀ s : Scan K d W, Spec.hits g k (if fl.fallbackDefault then { s with ray := defRay } else s) = Spec.hits g k s := by
    intro s; split <;> rfl
  cases op with
  | core op =>
    refine ⟨(∅, true), trivial, fun c _ i => ?_⟩
    have e := (coreStep_spec k.lawful k.dyn exp op st hst.rinv t h).2.val
    have e' : (t.content c i).getD Occ.new = (st.content c i).getD Occ.new := e c i
    rw [e']
    exact ⟨(add_zero _).symm, (add_zero _).symm⟩
  | insert s => exact ⟨(Spec.hitBundles g k s, true), rfl, fb s s rfl h⟩
  | insertVisible s occ vm =>
    cases occ with
    | none =>
      refine ⟨(Spec.hitBundles g k s, true), rfl, fun c hc i => ?_⟩
      exact fb s _ (fb' s) h c hc i
    | some occ =>
      cases vm with
      | none =>
        refine ⟨(Spec.hitBundles g k s, true), rfl, fun c hc i => ?_⟩
        exact fb s _ (fb' s) h c hc i
      | some vm =>
        obtain ⟨l, ⟨hl, hm⟩, -⟩ := C29_hit_bundles_order k g hr s
        refine ⟨_, ⟨l, hl, hm, rfl⟩, fun c hc i => ?_⟩
        exact (visible_exact fl hmean k g hr defRay exp st t hst s occ vm h l hl hm _ _ rfl).1 c hc i

omit [IsStrictOrderedRing K] in
theorem occRun_append {B : Backend d} (fl : Flavour K d W E) (g : Geo K d) (dyn : Bool) (defRay : Pt K d → Pt K d → List (Idx d)) (exp : Occ W E → Bool) :
    ∀ (l l' : List (OccMapOp K d W E)) (st : St B (Occ W E)), occRun fl g dyn defRay exp (l ++ l') st = (occRun fl g dyn defRay exp l st).bind (occRun fl g dyn defRay exp l')
  | [], _, _ => rfl
  | op :: l, l', st => by
    show (occStep fl g dyn defRay exp op st).bind _ = ((occStep fl g dyn defRay exp op st).bind _).bind _
    rw [Option.bind_assoc]
    exact congrArg _ (funext fun s => occRun_append fl g dyn defRay exp l l' s)

theorem history_exact (fl : Flavour K d W E) (hmean : ∀ s : Multiset (Pt K d), fl.mean (s.map fl.sample) = Spec.meanOf s) (k : Kind d) (g : Geo K d) (hr : 0 < g.r)
    (defRay : Pt K d → Pt K d → List (Idx d)) (exp : Occ W E → Bool) (ops : List (OccMapOp K d W E)) : ∀ (st : St k.backend (Occ W E)),
    occRun fl g k.dyn defRay exp ops (k.init _) = some st → ∃ outs : List (Finset (Idx d) × Bool), outs.length = ops.length ∧
      (∀ j (hj : j < ops.length) (hj' : j < outs.length), ∃ sj, occRun fl g k.dyn defRay exp (ops.take j) (k.init _) = some sj ∧ Spec.Outcome fl.sample g k sj.content sj.abs.allocated ops[j] outs[j]) ∧
      ∀ c, c < 2 ^ d → ∀ i, ((st.content c i).getD Occ.new).samples = (((ops.zip outs).map (Spec.hitsBy g k c i)).sum).map fl.sample ∧
        ((st.content c i).getD Occ.new).free = ((ops.zip outs).map (opFree fl defRay g k c i)).sum := by
  induction ops using List.reverseRecOn with
  | nil =>
    intro st h
    cases h
    refine ⟨[], rfl, fun j hj => absurd hj (Nat.not_lt_zero j), fun c _ i => ?_⟩
    rw [show (k.init (Occ W E)).content c i = none from Kind.init_content k c i]
    exact ⟨rfl, rfl⟩
  | append_singleton l op ih =>
    intro st h
    rw [occRun_append] at h
    obtain ⟨s1, h1, h2⟩ := Option.bind_eq_some_iff.1 h
    obtain ⟨s2, h3, h4⟩ := Option.bind_eq_some_iff.1 h2
    cases h4
    obtain ⟨outs, e1, e2, e3⟩ := ih s1 h1
    obtain ⟨o, ho, hs⟩ := step_contribution fl hmean k g hr defRay exp s1 st ⟨l, h1⟩ op h3
    refine ⟨outs ++ [o], by simp [e1], fun j hj hj' => ?_, fun c hc i => ?_⟩
    · rcases Nat.lt_or_ge j l.length with hlt | hge
      · obtain ⟨sj, a1, a2⟩ := e2 j hlt (by omega)
        refine ⟨sj, by rw [List.take_append_of_le_length hlt.le]; exact a1, ?_⟩
        rw [List.getElem_append_left hlt, List.getElem_append_left (by omega)]
        exact a2
      · have hjl : j = l.length := by simp at hj; omega
        subst hjl
        refine ⟨s1, by rw [List.take_left]; exact h1, ?_⟩
        rw [List.getElem_append_right (le_refl _), List.getElem_append_right (by omega)]
        simpa [e1] using ho
    · rw [List.zip_append e1.symm, List.map_append, List.sum_append, List.map_append, List.sum_append, Multiset.map_add]
      obtain ⟨a1, a2⟩ := e3 c hc i
      obtain ⟨b1, b2⟩ := hs c hc i
      rw [b1, b2, a1, a2]
      simp

end generic

/-- **C27** (all histories, occupancy maps). After any history, with `insertVisible` calls in any places and any models, the distribution of grid `c` at `i` contains exactly the points that the operations contributed: `insert` all
hits in the cell, `insertVisible` the hits in the bundles it found visible in the map at that time. Its free counter is the sum of the misses of all `insert` calls and of the `insertVisible` calls that ran to their end. -/
theorem C27_occupancy_any_history (k : Kind d) (g : Geo K d) (hr : 0 < g.r) (defRay : Pt K d → Pt K d → List (Idx d)) (exp : Occ Nat (Pt K d) → Bool)
    (ops : List (OccMapOp K d Nat (Pt K d))) (st : St k.backend (Occ Nat (Pt K d))) (h : occRun (occFlavour K d) g k.dyn defRay exp ops (k.init _) = some st) :
    ∃ outs : List (Finset (Idx d) × Bool), outs.length = ops.length ∧
      (∀ j (hj : j < ops.length) (hj' : j < outs.length), ∃ sj, occRun (occFlavour K d) g k.dyn defRay exp (ops.take j) (k.init _) = some sj ∧
        Spec.Outcome id g k sj.content sj.abs.allocated ops[j] outs[j]) ∧
      ∀ c, c < 2 ^ d → ∀ i, ((st.content c i).getD Occ.new).samples = ((ops.zip outs).map (Spec.hitsBy g k c i)).sum ∧
        ((st.content c i).getD Occ.new).numFree = ((ops.zip outs).map (Spec.missesBy false id g k c i)).sum := by
  obtain ⟨outs, h1, h2, h3⟩ := history_exact (occFlavour K d) occFlavour_mean k g hr defRay exp ops st h
  refine ⟨outs, h1, h2, fun c hc i => ?_⟩
  obtain ⟨a1, a2⟩ := h3 c hc i
  rw [show (occFlavour K d).sample = id from rfl, Multiset.map_id] at a1
  refine ⟨a1, a2.trans (congrArg List.sum (List.map_congr_left fun x _ => ?_))⟩
  have key : ∀ skip s, freeBy (occFlavour K d) skip g k s c i = Spec.misses skip g k s c i := by
    intro skip s
    unfold freeBy Spec.misses
    refine Finset.sum_congr rfl fun b _ => ?_
    rw [smul_eq_mul, show (occFlavour K d).sample = id from rfl, Multiset.map_id]
    rfl
  obtain ⟨op, o⟩ := x
  cases op with
  | core _ => rfl
  | insert s => exact key false s
  | insertVisible s occ vm =>
    cases occ with
    | none => exact key false s
    | some occ =>
      cases vm with
      | none => exact key false s
      | some vm =>
        show (if o.2 then _ else _) = (if o.2 then _ else _)
        rw [key true s]

/-- **C27** (all histories, weighted maps): as `C27_occupancy_any_history`. Every point has weight 1; ray cells that are hit bundles never count, and `insertVisible` without models uses the default ray tracer (C30). -/
theorem C27_weighted_any_history (k : Kind d) (g : Geo K d) (hr : 0 < g.r) (defRay : Pt K d → Pt K d → List (Idx d)) (exp : Occ K (Pt K d × K) → Bool)
    (ops : List (OccMapOp K d K (Pt K d × K))) (st : St k.backend (Occ K (Pt K d × K))) (h : occRun (weightedFlavour K d) g k.dyn defRay exp ops (k.init _) = some st) :
    ∃ outs : List (Finset (Idx d) × Bool), outs.length = ops.length ∧
      (∀ j (hj : j < ops.length) (hj' : j < outs.length), ∃ sj, occRun (weightedFlavour K d) g k.dyn defRay exp (ops.take j) (k.init _) = some sj ∧
        Spec.Outcome (fun p => (p, 1)) g k sj.content sj.abs.allocated ops[j] outs[j]) ∧
      ∀ c, c < 2 ^ d → ∀ i, ((st.content c i).getD Occ.new).samples = (((ops.zip outs).map (Spec.hitsBy g k c i)).sum).map (fun p => (p, 1)) ∧
        ((st.content c i).getD Occ.new).numFree = ((((ops.zip outs).map (Spec.missesBy true (fun s => { s with ray := defRay }) g k c i)).sum : Nat) : K) := by
  obtain ⟨outs, h1, h2, h3⟩ := history_exact (weightedFlavour K d) weightedFlavour_mean k g hr defRay exp ops st h
  refine ⟨outs, h1, h2, fun c hc i => ?_⟩
  obtain ⟨a1, a2⟩ := h3 c hc i
  refine ⟨a1, a2.trans ?_⟩
  rw [Nat.cast_list_sum, List.map_map]
  refine congrArg List.sum (List.map_congr_left fun x _ => ?_)
  have key : ∀ skip s, freeBy (weightedFlavour K d) skip g k s c i = (Spec.misses skip g k s c i : K) := by
    intro skip s
    unfold freeBy Spec.misses
    rw [Nat.cast_sum]
    refine Finset.sum_congr rfl fun b _ => ?_
    rw [weightedFlavour_amount, nsmul_eq_mul, Nat.cast_mul]
  obtain ⟨op, o⟩ := x
  cases op with
  | core _ => exact Nat.cast_zero.symm
  | insert s => exact key true s
  | insertVisible s occ vm =>
    cases occ with
    | none => exact key true _
    | some occ =>
      cases vm with
      | none => exact key true _
      | some vm =>
        show (if o.2 then _ else _) = ((if o.2 then _ else _ : Nat) : K)
        rw [key true s]
        split <;> simp

omit [FloorRing K] in
open scoped Classical in
theorem hitsBy_le {W E : Type} [AddCommMonoid W] (g : Geo K d) (k : Kind d) (c : Nat) (i : Idx d) : ∀ (ops : List (OccMapOp K d W E)) (outs : List (Finset (Idx d) × Bool)),
    ((ops.zip outs).map (Spec.hitsBy g k c i)).sum ≤ (ops.map (Spec.allHits g k c i)).sum
  | [], _ => by simp
  | _ :: _, [] => by simp
  | op :: l, o :: outs => by
    rw [List.zip_cons_cons, List.map_cons, List.map_cons, List.sum_cons, List.sum_cons]
    refine add_le_add ?_ (hitsBy_le g k c i l outs)
    cases op with
    | core _ => exact le_refl _
    | insert s => exact hitsOn_le g k s o.1 c i
    | insertVisible s _ _ => exact hitsOn_le g k s o.1 c i

open scoped Classical in
/-- **C27** (nothing is invented or counted twice). After any history, every distribution contains at most the hits of the scans in its cell, with their multiplicities, and at least those of the `insert` calls. -/
theorem C27_bounds_any_history (k : Kind d) (g : Geo K d) (hr : 0 < g.r) (defRay : Pt K d → Pt K d → List (Idx d)) (exp : Occ Nat (Pt K d) → Bool)
    (ops : List (OccMapOp K d Nat (Pt K d))) (st : St k.backend (Occ Nat (Pt K d))) (h : occRun (occFlavour K d) g k.dyn defRay exp ops (k.init _) = some st)
    (c : Nat) (hc : c < 2 ^ d) (i : Idx d) :
    ((st.content c i).getD Occ.new).samples ≤ (ops.map (Spec.allHits g k c i)).sum ∧
    (((scansOf ops).map fun s => Spec.hits g k s).sum).filter (Spec.InCell g.r c i) ≤ ((st.content c i).getD Occ.new).samples := by
  obtain ⟨outs, h1, h2, h3⟩ := C27_occupancy_any_history k g hr defRay exp ops st h
  obtain ⟨a1, -⟩ := h3 c hc i
  rw [a1]
  refine ⟨hitsBy_le g k c i ops outs, ?_⟩
  have key : ∀ (ops : List (OccMapOp K d Nat (Pt K d))) (outs : List (Finset (Idx d) × Bool)), outs.length = ops.length →
      (∀ j (hj : j < ops.length) (hj' : j < outs.length) s, ops[j] = .insert s → outs[j] = (Spec.hitBundles g k s, true)) →
      (((scansOf ops).map fun s => Spec.hits g k s).sum).filter (Spec.InCell g.r c i) ≤ ((ops.zip outs).map (Spec.hitsBy g k c i)).sum := by
    intro ops
    induction ops with
    | nil => intro outs _ _; exact le_refl _
    | cons op l ih =>
      intro outs hl hj
      cases outs with
      | nil => cases hl
      | cons o outs =>
        have r := ih outs (by simpa using hl) fun j a b s e => hj (j + 1) (by simpa using a) (by simpa using b) s (by simpa using e)
        rw [List.zip_cons_cons, List.map_cons, List.sum_cons]
        cases op with
        | core _ => exact r.trans (by simp [Spec.hitsBy])
        | insertVisible s _ _ => exact r.trans (Multiset.le_add_left _ _)
        | insert s =>
          have e := hj 0 (by simp) (by simp) s rfl
          simp only [scansOf, List.map_cons, List.sum_cons, Multiset.filter_add]
          refine add_le_add ?_ r
          show _ ≤ Spec.hitsOn g k s o.1 c i
          rw [show o = (Spec.hitBundles g k s, true) from e, hitsOn_all g hr k s c i]
  refine key ops outs h1 fun j hj hj' s e => ?_
  obtain ⟨sj, -, ho⟩ := h2 j hj hj'
  rw [e] at ho
  exact ho

/-- **C27** (occupancy values, all histories). After any history the occupancy of every distribution is the documented function of its numbers of misses and hits (as long as the counters have not overflowed), which
`C27_occupancy_any_history` determines. -/
theorem C27_value_any_history (k : Kind d) (g : Geo K d) (defRay : Pt K d → Pt K d → List (Idx d)) (exp : Occ Nat (Pt K d) → Bool)
    (ops : List (OccMapOp K d Nat (Pt K d))) (st : St k.backend (Occ Nat (Pt K d))) (h : occRun (occFlavour K d) g k.dyn defRay exp ops (k.init _) = some st)
    (c : Nat) (hc : c < 2 ^ d) (i : Idx d) (o : Occ Nat (Pt K d)) (ho : st.content c i = some o) (m : Ivm) (hw : o.numFree + o.samples.card ≤ 2 ^ 64) :
    o.occupancy m = occupancySpec m o.numFree o.samples.card := by
  have hn := C27_no_empty_distribution (occFlavour K d) k g defRay exp ops st h c hc i o ho
  unfold Occ.numFree at hw ⊢
  unfold occupancySpec Occ.occupancy
  by_cases e : o.samples = 0
  · rw [hn.2 e, e]; simp
  · have hd : o.data = some o.samples := by
      unfold Occ.samples at e ⊢
      cases hx : o.data with
      | none => rw [hx] at e; exact absurd rfl e
      | some s => rfl
    rw [hd]
    have hc : 0 < o.samples.card := Multiset.card_pos.2 e
    rw [if_neg (by omega)]
    simp only
    rw [wrapMinusOne_eq hc hw]
    unfold logOddsFrom
    rw [Nat.cast_sub (by omega), Nat.cast_add]
    norm_num

end

/-- Non-vacuity: a history with a plain scan, followed by a visibility-aware scan with two hit bundles. -/
example : ∃ st, occRun (occFlavour ℚ 2) unitGeo visKind.dyn xRay (fun _ => true)
    (histNear ++ [.insertVisible (visScan Nat [pA, pB] xRay) (some hitOcc) (some visVm)]) (visKind.init _) = some st := by
  obtain ⟨t, ht⟩ := Option.isSome_iff_exists.1 histTwo_runs
  refine ⟨t, ?_⟩
  have h : occRun (occFlavour ℚ 2) unitGeo visKind.dyn xRay (fun _ => true) histNear (visKind.init _) = some histNearMap := (Option.some_get _).symm
  rw [occRun_append, h, Option.bind_some]
  show (occInsertVisible (occFlavour ℚ 2) unitGeo visKind.dyn xRay (visScan Nat [pA, pB] xRay) (some hitOcc) (some visVm) histNearMap).bind _ = _
  rw [ht]; rfl

end Ndt
