import Verif.Props.SameFiles
import Verif.Props.Entry
import Verif.Props.ExportRgb
import Verif.Spec.SameExports

/-! Property theorems C98: whatever is computed from a map – grids, clouds, markers, converted maps, sizes – is determined by its contents. -/

namespace Ndt
open St

/-! ### Two maps with the same visible state are traversed alike -/

theorem forall₂_of_keys {α β : Type} {R : α × β → α × β → Prop} : ∀ (l l' : List (α × β)), l.map Prod.fst = l'.map Prod.fst → (∀ e ∈ l, ∀ e' ∈ l', e.1 = e'.1 → R e e') → List.Forall₂ R l l'
  | [], [], _, _ => .nil
  | [], _ :: _, h, _ => by simp at h
  | _ :: _, [], h, _ => by simp at h
  | e :: l, e' :: l', h, hR => by
    simp only [List.map_cons, List.cons.injEq] at h
    exact .cons (hR e (by simp) e' (by simp) h.1) (forall₂_of_keys l l' h.2 fun x hx x' hx' => hR x (by simp [hx]) x' (by simp [hx']))

theorem flatMap_forall₂ {α β γ : Type} {R : α → β → Prop} {f : α → List γ} {g : β → List γ} {l : List α} {l' : List β} (h : List.Forall₂ R l l') (hfg : ∀ a b, R a b → f a = g b) :
    l.flatMap f = l'.flatMap g := by
  induction h with
  | nil => rfl
  | cons hab _ ih => rw [List.flatMap_cons, List.flatMap_cons, hfg _ _ hab, ih]

section
variable {d : Nat} {B : Backend d} {L : B.Lawful} {lt : Idx d → Idx d → Prop} {D : Type} [Inhabited D]

/-- what two bundles of two maps have in common: the contents of the bins -/
def SameBins (st st' : St B D) (e e' : Idx d × Bundle) : Prop := e.1 = e'.1 ∧ ∀ c, c < 2 ^ d → (e.2.data c).map st.heap = (e'.2.data c).map st'.heap

theorem same_traverse (O : Backend.Ordered L lt) (st st' : St B D) (hI : Inv L st) (hI' : Inv L st') (h : Spec.Restored st st') :
    List.Forall₂ (SameBins st st') (B.traverse st.bundles) (B.traverse st'.bundles) := by
  have hb : st.bundleIndices = st'.bundleIndices := bundleIndices_ext O _ _ hI hI' fun bi => (h.bundles bi).symm
  refine forall₂_of_keys _ _ hb ?_
  rintro ⟨bi, b⟩ he ⟨bi', b'⟩ he' hbi
  obtain rfl : bi = bi' := hbi
  refine ⟨rfl, fun c hc => ?_⟩
  have e1 : st.bundle bi = some b := (L.mem_traverse _ hI.bstore _ _).1 he
  have e2 : st'.bundle bi = some b' := (L.mem_traverse _ hI'.bstore _ _).1 he'
  have := h.binContents bi c hc
  unfold binContent at this
  rw [e1, e2] at this
  exact this.symm

theorem same_items (O : Backend.Ordered L lt) (st st' : St B D) (hI : Inv L st) (hI' : Inv L st') (h : Spec.Restored st st') : st'.items = st.items := by
  have : ∀ s : St B D, s.items = (List.range (twoPow d)).flatMap fun c => records s c := fun _ => rfl
  rw [this, this]
  congr 1
  funext c
  exact records_ext O _ _ hI' hI c fun k => h.contents c k

end

/-! ### Functions of the contents of a bundle -/

section
variable {d : Nat} {B : Backend d} {D : Type} {K : Type} {st st' : St B D} {b b' : Bundle}

theorem evaluate_congr [Field K] (h : ∀ c, c < 2 ^ d → (b.data c).map st.heap = (b'.data c).map st'.heap) (w : Nat → K) (f : D → K) : evaluate w f b' st' = evaluate w f b st := by
  refine List.foldl_ext _ _ _ fun x c hc => ?_
  have := h c (by simpa using hc)
  cases e : b.data c <;> cases e' : b'.data c <;> rw [e, e'] at this <;> simp_all

theorem evaluateR_congr [Field K] [LinearOrder K] (h : ∀ c, c < 2 ^ d → (b.data c).map st.heap = (b'.data c).map st'.heap) (R : Arith K) (w : Nat → K) (f : D → K) :
    evaluateR R w f b' st' = evaluateR R w f b st := by
  refine List.foldl_ext _ _ _ fun x c hc => ?_
  have := h c (by simpa using hc)
  cases e : b.data c <;> cases e' : b'.data c <;> rw [e, e'] at this <;> simp_all

theorem jetLoop_congr (h : ∀ c, c < 2 ^ d → (b.data c).map st.heap = (b'.data c).map st'.heap) (valid : D → Bool) (bell : D → Pt ℝ d → ℝ) (p : Pt ℝ d) :
    Matching.jetLoop valid bell p b' st' = Matching.jetLoop valid bell p b st := by
  refine List.foldl_ext _ _ _ fun x c hc => ?_
  have := h c (by simpa using hc)
  cases e : b.data c <;> cases e' : b'.data c <;> rw [e, e'] at this <;> simp_all

theorem occJetLoop_congr {W E M : Type} {st st' : St B (Occ W E)} (valid : Multiset E → Bool) (bell : Multiset E → Pt ℝ d → ℝ) (occ : M → Occ W E → ℝ) (ivm : Option M) (p : Pt ℝ d) :
    ∀ (l : List Nat) (x : ℝ), (∀ c ∈ l, (b.data c).map st.heap = (b'.data c).map st'.heap) →
      Matching.occJetLoop valid bell occ ivm p b' st' l x = Matching.occJetLoop valid bell occ ivm p b st l x
  | [], _, _ => rfl
  | c :: l, x, h => by
    have hc := h c (by simp)
    have ih := fun x => occJetLoop_congr valid bell occ ivm p l x fun c hc => h c (by simp [hc])
    unfold Matching.occJetLoop
    cases e : b.data c with
    | none =>
      cases e' : b'.data c with
      | none => exact ih x
      | some a' => rw [e, e'] at hc; simp at hc
    | some a =>
      cases e' : b'.data c with
      | none => rw [e, e'] at hc; simp at hc
      | some a' =>
        rw [e, e'] at hc
        simp only [Option.map_some, Option.some.injEq] at hc
        simp only [hc]
        cases ivm with
        | none => rfl
        | some m => simp only; split <;> exact ih _

end

section
variable {B : Backend 2} {D K : Type} [Field K] [LinearOrder K] [FloorRing K] {st st' : St B D}

theorem evaluateFl_congr {b b' : Bundle} (h : ∀ c, c < 2 ^ 2 → (b.data c).map st.heap = (b'.data c).map st'.heap) (w : Nat → Fl K) (f : D → Fl K) : evaluateFl w f b' st' = evaluateFl w f b st := by
  refine List.foldl_ext _ _ _ fun x c hc => ?_
  have := h c (by simpa using hc)
  cases e : b.data c <;> cases e' : b'.data c <;> rw [e, e'] at this <;> simp_all

theorem rasterize_congr {V : Type} (ht : List.Forall₂ (SameBins st st') (B.traverse st.bundles) (B.traverse st'.bundles)) (h1 : st'.minB = st.minB) (h2 : st'.maxB = st.maxB)
    (r s : K) (dflt : V) (val val' : Bundle → Pt K 2 → (Fin 2 → K) → V)
    (hv : ∀ b b', (∀ c, c < 2 ^ 2 → (b.data c).map st.heap = (b'.data c).map st'.heap) → val' b' = val b) : rasterize r s dflt val' st' = rasterize r s dflt val st := by
  have hw : rasterWrites r s val' st' = rasterWrites r s val st := by
    unfold rasterWrites
    refine (flatMap_forall₂ ht ?_).symm
    rintro e e' ⟨he, hb⟩
    rw [he, h1, hv _ _ hb]
  have hx : ∀ a, rasterExtent r s st' a = rasterExtent r s st a := fun a => by unfold rasterExtent; rw [h1, h2]
  unfold rasterize
  rw [hx, hx, hw]

theorem rasterizeR_congr {V : Type} (ht : List.Forall₂ (SameBins st st') (B.traverse st.bundles) (B.traverse st'.bundles)) (h1 : st'.minB = st.minB) (h2 : st'.maxB = st.maxB)
    (R : Arith K) (r s : K) (dflt : V) (val val' : Bundle → Pt K 2 → (Fin 2 → K) → V)
    (hv : ∀ b b', (∀ c, c < 2 ^ 2 → (b.data c).map st.heap = (b'.data c).map st'.heap) → val' b' = val b) : rasterizeR R r s dflt val' st' = rasterizeR R r s dflt val st := by
  have hw : ∀ n, rasterWritesR R r s n val' st' = rasterWritesR R r s n val st := by
    intro n
    unfold rasterWritesR
    refine (flatMap_forall₂ ht ?_).symm
    rintro e e' ⟨he, hb⟩
    rw [he, h1, hv _ _ hb]
  have hx : ∀ a, rasterExtentR R r s st' a = rasterExtentR R r s st a := fun a => by unfold rasterExtentR; rw [h1, h2]
  unfold rasterizeR
  simp only [hx, hw]

theorem same_grids (ht : List.Forall₂ (SameBins st st') (B.traverse st.bundles) (B.traverse st'.bundles)) (h1 : st'.minB = st.minB) (h2 : st'.maxB = st.maxB) : Spec.SameGrids K st st' := by
  have hp : ∀ {K : Type} [Field K] [LinearOrder K] [FloorRing K] (r s dflt : K) bil f, toProb r s dflt bil f st' = toProb r s dflt bil f st := by
    intro K _ _ _ r s dflt bil f
    exact rasterize_congr ht h1 h2 r s dflt _ _ fun b b' hb => funext fun p => funext fun w => evaluate_congr hb _ _
  refine ⟨hp, fun r s dflt f => ?_, fun r s t f => ?_, fun r s bil dt f => ?_, fun r s sigma bil dt f => ?_, fun R r s dflt w f => ?_, fun r T => ?_⟩
  · exact rasterize_congr ht h1 h2 r s dflt _ _ fun b b' hb => funext fun p => funext fun w => evaluateFl_congr hb _ _
  · refine rasterize_congr ht h1 h2 r s false _ _ fun b b' hb => funext fun p => funext fun w => ?_
    exact congrArg (fun x => decide (t ≤ x)) (evaluate_congr hb _ _)
  · unfold toDistance; rw [hp]
  · unfold toLikelihood; rw [hp]
  · exact rasterizeR_congr ht h1 h2 R r s dflt _ _ fun b b' hb => funext fun p => funext fun x => evaluateR_congr hb R _ _
  · unfold getOrigin getMin; rw [h1]

end

/-! ### Conversions of maps -/

section
variable {d : Nat} {D : Type} [Inhabited D]

theorem assignBins_congr {B : Backend d} (g : D → D → D) (src src' : Nat → Option D) (b : Bundle) : ∀ (l : List Nat) (st : St B D), (∀ c ∈ l, src c = src' c) →
    assignBins g src b l st = assignBins g src' b l st
  | [], _, _ => rfl
  | c :: l, st, h => by
    unfold assignBins
    rw [h c (by simp)]
    split
    · exact assignBins_congr g src src' b l _ fun c hc => h c (by simp [hc])
    · rfl

theorem convertList_congr {B : Backend d} (dyn : Bool) (g : D → D → D) {l l' : List (Idx d × (Nat → Option D))}
    (h : List.Forall₂ (fun e e' => e.1 = e'.1 ∧ ∀ c, c < 2 ^ d → e.2 c = e'.2 c) l l') : ∀ st : St B D, convertList dyn g l st = convertList dyn g l' st := by
  induction h with
  | nil => intro _; rfl
  | @cons e e' l l' he _ ih =>
    intro st
    obtain ⟨bi, src⟩ := e
    obtain ⟨bi', src'⟩ := e'
    obtain ⟨rfl, hs⟩ := he
    have : convertStep dyn g bi src st = convertStep dyn g bi src' st := by
      unfold convertStep
      split
      · rfl
      · rfl
      · exact assignBins_congr g src src' _ _ _ fun c hc => hs c (by simpa using hc)
    simp only [convertList]
    rw [this]
    cases convertStep dyn g bi src' st with
    | none => rfl
    | some s => exact ih s

theorem addBins_congr {E : Type} (i : Idx d) (src src' : Nat → Option (Multiset E)) : ∀ (l : List Nat) (m : Mono d (Multiset E)), (∀ c ∈ l, src c = src' c) → Mono.addBins i src l m = Mono.addBins i src' l m
  | [], _, _ => rfl
  | c :: l, m, h => by
    unfold Mono.addBins
    rw [h c (by simp)]
    split
    · rfl
    · exact addBins_congr i src src' l _ fun c hc => h c (by simp [hc])

theorem mergeList_congr {E : Type} {l l' : List (Idx d × (Nat → Option (Multiset E)))}
    (h : List.Forall₂ (fun e e' => e.1 = e'.1 ∧ ∀ c, c < 2 ^ d → e.2 c = e'.2 c) l l') : ∀ m : Mono d (Multiset E), Mono.mergeList l m = Mono.mergeList l' m := by
  induction h with
  | nil => intro _; rfl
  | @cons e e' l l' he _ ih =>
    intro m
    obtain ⟨bi, src⟩ := e
    obtain ⟨bi', src'⟩ := e'
    obtain ⟨rfl, hs⟩ := he
    have : Mono.addBins bi src (List.range (twoPow d)) = Mono.addBins bi src' (List.range (twoPow d)) := funext fun m => addBins_congr bi src src' _ m fun c hc => hs c (by simpa using hc)
    have hl : Mono.mergeList l = Mono.mergeList l' := funext ih
    unfold Mono.mergeList
    rw [this, hl]

omit [Inhabited D] in
theorem bundleList_same {B : Backend d} {st st' : St B D} (ht : List.Forall₂ (SameBins st st') (B.traverse st.bundles) (B.traverse st'.bundles)) :
    List.Forall₂ (fun e e' => e.1 = e'.1 ∧ ∀ c, c < 2 ^ d → e.2 c = e'.2 c) (bundleList st) (bundleList st') := by
  unfold bundleList
  rw [List.forall₂_map_left_iff, List.forall₂_map_right_iff]
  exact ht.imp fun _ _ h => h

theorem same_conversions {K : Type} [Field K] (k : Kind d) {st st' : St k.backend D} (ht : List.Forall₂ (SameBins st st') (k.backend.traverse st.bundles) (k.backend.traverse st'.bundles)) (h1 : st'.minB = st.minB)
    (h2 : st'.maxB = st.maxB) : Spec.SameConversions k K st st' := by
  have hl := bundleList_same ht
  have hm : convMin st' = convMin st := funext fun a => by unfold convMin; rw [h1]
  have hs : convSize st' = convSize st := funext fun a => by unfold convSize convMax; rw [hm, h2]
  have hc : ∀ a, st'.bundleCount a = st.bundleCount a := fun a => by unfold bundleCount; rw [h1, h2]
  refine ⟨fun g => ?_, fun f f' g => ?_, ?_, fun r => ?_, fun r => ?_, fun r a => ?_, fun a => ?_⟩
  · unfold toStatic
    rw [hs, hm]
    simp only [convertList_congr false g hl]
  · exact (convertList_congr true g hl _).symm
  · unfold bundleIndices
    have : List.Forall₂ (fun (e e' : Idx d × Bundle) => e.1 = e'.1) (k.backend.traverse st.bundles) (k.backend.traverse st'.bundles) := ht.imp fun _ _ h => h.1
    have := (List.forall₂_map_left_iff (f := Prod.fst)).2 ((List.forall₂_map_right_iff (f := Prod.fst)).2 this)
    exact (List.forall₂_eq_eq_eq ▸ this : _ = _).symm
  · unfold getMin; rw [h1]
  · unfold getMax; rw [h2]
  · unfold getSizeM
    cases k <;> simp only [hc]
  · unfold getSize
    cases k <;> simp only [h1, h2]

theorem same_merge {E : Type} {B : Backend d} {st st' : St B (Multiset E)} (ht : List.Forall₂ (SameBins st st') (B.traverse st.bundles) (B.traverse st'.bundles)) (h1 : st'.minB = st.minB)
    (h2 : st'.maxB = st.maxB) : Mono.merge st' = Mono.merge st := by
  have hs : Mono.mergeSize st' = Mono.mergeSize st := funext fun a => by unfold Mono.mergeSize; rw [h1, h2]
  unfold Mono.merge
  rw [hs, h1]
  simp only [mergeList_congr (bundleList_same ht)]

end

/-! ### Costs of scan matching -/

section
variable {d : Nat} {D : Type} [Inhabited D] {B : Backend d} {L : B.Lawful} {dyn : Bool}

theorem St.Alike.bins {st st' : St B D} (h : Alike L dyn st st') {bi : Idx d} {b b' : Bundle} (hb : st.bundle bi = some b) (hb' : st'.bundle bi = some b') (c : Nat) (hc : c < 2 ^ d) :
    (b.data c).map st.heap = (b'.data c).map st'.heap := by
  have := h.restored.binContents bi c hc
  unfold binContent at this
  rw [hb, hb'] at this
  exact this.symm

theorem St.Alike.sampleWithR {K : Type} [Field K] [LinearOrder K] {st st' : St B D} (h : Alike L dyn st st') (R : Arith K) (w : Nat → K) (f : D → K) (bi : Idx d) :
    St.sampleWithR R dyn w f bi st' = St.sampleWithR R dyn w f bi st := by
  have := h.getBundle bi
  unfold St.getBundle at this
  unfold St.sampleWithR
  rw [h.validEq] at this ⊢
  by_cases hv : st.valid dyn bi = true
  · rw [if_pos hv, if_pos hv] at this
    rw [if_pos hv, if_pos hv]
    rw [show B.ok st'.bundles bi = B.ok st.bundles bi from congrFun h.sim.okB bi] at this ⊢
    by_cases hok : B.ok st.bundles bi = true
    · rw [if_pos hok, if_pos hok] at this
      rw [if_pos hok, if_pos hok]
      replace this : BothOr _ (B.get st.bundles bi) (B.get st'.bundles bi) := this
      cases e : B.get st.bundles bi with
      | none => rw [e] at this; rw [this.of_none rfl]
      | some b =>
        rw [e] at this
        obtain ⟨b', e', hb, hb'⟩ := this.of_some rfl
        rw [e']
        exact congrArg some (evaluateR_congr (h.bins hb hb') R w f)
    · rw [if_neg hok, if_neg hok]
  · rw [if_neg hv, if_neg hv]

theorem same_costs {st st' : St B D} (h : Alike L dyn st st') : Spec.SameCosts dyn st st' := by
  refine ⟨fun g dens q => ?_, fun g valid bell q => ?_, fun R g dens p => ?_, fun R g dens p => ?_⟩
  · unfold Matching.evaluateDouble sampleNNAt sampleNN
    rw [h.sampleWith]
  · unfold Matching.evaluateJet
    have := h.getBundle (fun a => ⌊g.toMap q a * (1 / bundleResolution g.r)⌋)
    revert this
    simp only
    generalize hx : St.getBundle dyn (fun a => ⌊g.toMap q a * (1 / bundleResolution g.r)⌋) st = x
    generalize hy : St.getBundle dyn (fun a => ⌊g.toMap q a * (1 / bundleResolution g.r)⌋) st' = y
    intro this
    rcases x with _ | _ | b <;> rcases y with _ | _ | b' <;> first | rfl | exact this.elim | skip
    exact congrArg some (jetLoop_congr (h.bins this.1 this.2) valid bell _)
  · unfold sampleNNAtR; simp only [h.sampleWithR]
  · unfold sampleBilinearAtR; simp only [h.sampleWithR]

theorem same_occ_costs {W E : Type} [AddCommMonoid W] {st st' : St B (Occ W E)} (h : Alike L dyn st st') : Spec.SameOccCosts dyn st st' := by
  refine ⟨fun g dens occ ivm q => ?_, fun g valid bell occ ivm q => ?_, fun R g dens occ p ivm => ?_, fun R g dens occ p ivm => ?_⟩
  · unfold Matching.occEvaluateDouble
    cases ivm with
    | none => rfl
    | some m => exact congrArg (fun x : Option ℝ => Except.ok (x.map fun s => 1 - s)) (h.sampleWith ..)
  · unfold Matching.occEvaluateJet
    have := h.getBundle (fun a => ⌊g.toMap q a * (1 / bundleResolution g.r)⌋)
    revert this
    simp only
    generalize hx : St.getBundle dyn (fun a => ⌊g.toMap q a * (1 / bundleResolution g.r)⌋) st = x
    generalize hy : St.getBundle dyn (fun a => ⌊g.toMap q a * (1 / bundleResolution g.r)⌋) st' = y
    intro this
    rcases x with _ | _ | b <;> rcases y with _ | _ | b' <;> first | rfl | exact this.elim | skip
    simp only
    rw [occJetLoop_congr valid bell occ ivm _ _ _ fun c hc => h.bins this.1 this.2 c (by simpa using hc)]
  · unfold occSampleNNAtR; simp only [h.sampleWithR]
  · unfold occSampleBilinearAtR; simp only [h.sampleWithR]

end

/-! ### C98 -/

/-- both kinds of maps traverse their storages in an order given by the indices -/
theorem Kind.ordered {d : Nat} (k : Kind d) : ∃ lt, Backend.Ordered k.lawful lt := by
  cases k with
  | dynamic g g' => exact ⟨_, octree_ordered d⟩
  | static size lo => exact ⟨_, array_ordered d⟩

section
variable {d : Nat} {D : Type} [Inhabited D] (k : Kind d) {st st' : St k.backend D}

theorem kind_traverse (hI : Inv k.lawful st) (hI' : Inv k.lawful st') (h : Spec.Restored st st') :
    List.Forall₂ (SameBins st st') (k.backend.traverse st.bundles) (k.backend.traverse st'.bundles) := by
  obtain ⟨lt, O⟩ := k.ordered
  exact same_traverse O st st' hI hI' h

theorem kind_items (hI : Inv k.lawful st) (hI' : Inv k.lawful st') (h : Spec.Restored st st') : st'.items = st.items := by
  obtain ⟨lt, O⟩ := k.ordered
  exact same_items O st st' hI hI' h

variable {exp₁ exp₂ : D → Bool}

/-- **C98** (conversions, sizes). Two maps of the same kind with the same bundles, contents and bounds, reached by any histories, are converted to the same static map and to the same dynamic map, list
the same bundles in the same order and report the same sizes. -/
theorem C98_conversions (K : Type) [Field K] (hR : MapReachable k exp₁ st) (hR' : MapReachable k exp₂ st') (h : Spec.Restored st st') : Spec.SameConversions k K st st' :=
  same_conversions k (kind_traverse k hR.spec.1.inv hR'.spec.1.inv h) h.minB h.maxB

/-- **C98** (scan matching). Every scan has the same cost and the same derivatives against two such maps; so have samples computed in floating-point arithmetic. -/
theorem C98_costs (hR : MapReachable k exp₁ st) (hR' : MapReachable k exp₂ st') (h : Spec.Restored st st') : Spec.SameCosts k.dyn st st' := same_costs (like_reachable k hR hR' h).toAlike

end

/-- **C98** (scan matching against occupancy maps) -/
theorem C98_costs_occupancy {d : Nat} {W E : Type} [AddCommMonoid W] (k : Kind d) {st st' : St k.backend (Occ W E)} {exp₁ exp₂ : Occ W E → Bool} (hR : MapReachable k exp₁ st) (hR' : MapReachable k exp₂ st')
    (h : Spec.Restored st st') : Spec.SameOccCosts k.dyn st st' := same_occ_costs (like_reachable k hR hR' h).toAlike

/-- **C98** (merging). The single-resolution map made from two such NDT maps is the same. -/
theorem C98_merge {d : Nat} {E : Type} (k : Kind d) {st st' : St k.backend (Multiset E)} {exp₁ exp₂ : Multiset E → Bool} (hR : MapReachable k exp₁ st) (hR' : MapReachable k exp₂ st')
    (h : Spec.Restored st st') : Mono.merge st' = Mono.merge st := same_merge (kind_traverse k hR.spec.1.inv hR'.spec.1.inv h) h.minB h.maxB

/-- **C98** (grids). All grids made from two such maps are equal, cell by cell, in exact and in floating-point arithmetic, and have the same origin. -/
theorem C98_grids {D : Type} [Inhabited D] (K : Type) [Field K] [LinearOrder K] [FloorRing K] (k : Kind 2) {st st' : St k.backend D} {exp₁ exp₂ : D → Bool} (hR : MapReachable k exp₁ st) (hR' : MapReachable k exp₂ st')
    (h : Spec.Restored st st') : Spec.SameGrids K st st' := same_grids (kind_traverse k hR.spec.1.inv hR'.spec.1.inv h) h.minB h.maxB

section
variable {K : Type} [Field K] [LinearOrder K]

theorem same_markers {d : Nat} {B : Backend d} {st st' : St B (Multiset (Pt K d))} (h : st'.items = st.items) : Spec.SameMarkers st st' := by
  intro Q C V D v marker0 dst
  unfold markersNdt; rw [h]

theorem same_occ_markers {d : Nat} {B : Backend d} {st st' : St B (Occ Nat (Pt K d))} (h : st'.items = st.items) : Spec.SameOccMarkers st st' := by
  intro Q C V D v occ threshold marker0 dst
  unfold markersOcc; rw [h]

theorem same_clouds {B : Backend 3} {st st' : St B (Multiset (Pt K 3))} (h : st'.items = st.items) : Spec.SameClouds st st' := by
  constructor
  · intros; unfold cloudNdt; rw [h]
  · intros; unfold rgbNdt; rw [h]

theorem same_occ_clouds {B : Backend 3} {st st' : St B (Occ Nat (Pt K 3))} (h : st'.items = st.items) : Spec.SameOccClouds st st' := by
  constructor
  · intros; unfold cloudOcc; rw [h]
  · intros; unfold rgbOcc; rw [h]

/-- **C98** (markers). Two such maps are drawn by the same sequence of markers. -/
theorem C98_markers {d : Nat} (k : Kind d) {st st' : St k.backend (Multiset (Pt K d))} {exp₁ exp₂ : Multiset (Pt K d) → Bool} (hR : MapReachable k exp₁ st) (hR' : MapReachable k exp₂ st')
    (h : Spec.Restored st st') : Spec.SameMarkers st st' := same_markers (kind_items k hR.spec.1.inv hR'.spec.1.inv h)

/-- **C98** (markers of occupancy maps) -/
theorem C98_markers_occupancy {d : Nat} (k : Kind d) {st st' : St k.backend (Occ Nat (Pt K d))} {exp₁ exp₂ : Occ Nat (Pt K d) → Bool} (hR : MapReachable k exp₁ st) (hR' : MapReachable k exp₂ st')
    (h : Spec.Restored st st') : Spec.SameOccMarkers st st' := same_occ_markers (kind_items k hR.spec.1.inv hR'.spec.1.inv h)

/-- **C98** (clouds). Two such maps are exported to the same point cloud message, byte by byte, and to the same coloured cloud. -/
theorem C98_clouds (k : Kind 3) {st st' : St k.backend (Multiset (Pt K 3))} {exp₁ exp₂ : Multiset (Pt K 3) → Bool} (hR : MapReachable k exp₁ st) (hR' : MapReachable k exp₂ st')
    (h : Spec.Restored st st') : Spec.SameClouds st st' := same_clouds (kind_items k hR.spec.1.inv hR'.spec.1.inv h)

/-- **C98** (clouds of occupancy maps) -/
theorem C98_clouds_occupancy (k : Kind 3) {st st' : St k.backend (Occ Nat (Pt K 3))} {exp₁ exp₂ : Occ Nat (Pt K 3) → Bool} (hR : MapReachable k exp₁ st) (hR' : MapReachable k exp₂ st')
    (h : Spec.Restored st st') : Spec.SameOccClouds st st' := same_occ_clouds (kind_items k hR.spec.1.inv hR'.spec.1.inv h)

end

/-! ### with allocation -/

theorem St.Like.allocateAll {d : Nat} {D : Type} [Inhabited D] {B : Backend d} {L : B.Lawful} {dyn : Bool} {st st' : St B D} (h : Like L dyn st st') (exp : D → Bool) (all : Bool) :
    BothOr (Like L dyn) (St.allocateAll dyn exp all st) (St.allocateAll dyn exp all st') := by
  unfold St.allocateAll
  cases all with
  | false => exact h
  | true => exact h.coreStep exp .expandAll

section
variable {D : Type} [Inhabited D] {K : Type} [Field K] [LinearOrder K] [FloorRing K]

/-- **C98** (grids with `allocate_all`). Converting two such maps, with or without allocation of the neighbours and whatever the targets contained, either leaves the contract for both, or gives equal grids and leaves
the sources with the same bundles, contents and bounds. -/
theorem C98_allocate_all (k : Kind 2) {st st' : St k.backend D} {exp₁ exp₂ : D → Bool} (hR : MapReachable k exp₁ st) (hR' : MapReachable k exp₂ st') (h : Spec.Restored st st')
    (exp : D → Bool) (all : Bool) (r s t dflt : K) (bil : Bool) (dt : Grid K → Nat → Nat → K) (f : D → Pt K 2 → K) (dst dst' : Option (Grid K)) (bst bst' : Option (Grid Bool)) :
    BothOr (fun x y => Spec.Restored x.1 y.1 ∧ y.2 = x.2) (convertRef k.dyn exp all (toProb r s dflt bil f) st dst) (convertRef k.dyn exp all (toProb r s dflt bil f) st' dst') ∧
    BothOr (fun x y => Spec.Restored x.1 y.1 ∧ y.2 = x.2) (convertRef k.dyn exp all (toBinary r s t f) st bst) (convertRef k.dyn exp all (toBinary r s t f) st' bst') ∧
    BothOr (fun x y => Spec.Restored x.1 y.1 ∧ y.2 = x.2) (convertRef k.dyn exp all (toDistance r s bil dt f) st dst) (convertRef k.dyn exp all (toDistance r s bil dt f) st' dst') := by
  have hl := (like_reachable k hR hR' h).allocateAll exp all
  have key : ∀ {V : Type} (conv : St k.backend D → Option (Grid V)) (a b : Option (Grid V)), (∀ s s' : St k.backend D, Like k.lawful k.dyn s s' → conv s' = conv s) →
      BothOr (fun x y => Spec.Restored x.1 y.1 ∧ y.2 = x.2) (convertRef k.dyn exp all conv st a) (convertRef k.dyn exp all conv st' b) := by
    intro V conv a b hc
    unfold convertRef
    refine hl.bind fun s s' hs => ?_
    rw [hc s s' hs]
    cases conv s with
    | none => trivial
    | some G => exact ⟨hs.restored, rfl⟩
  have hg : ∀ s s' : St k.backend D, Like k.lawful k.dyn s s' → Spec.SameGrids K s s' := fun s s' hs =>
    same_grids (kind_traverse k hs.inv.inv hs.inv'.inv hs.restored) hs.restored.minB hs.restored.maxB
  exact ⟨key _ _ _ fun s s' hs => (hg s s' hs).prob .., key _ _ _ fun s s' hs => (hg s s' hs).binary .., key _ _ _ fun s s' hs => (hg s s' hs).distance ..⟩

omit [FloorRing K] in
/-- **C98** (clouds and markers with `allocate_all`) -/
theorem C98_allocate_all_clouds (k : Kind 3) {st st' : St k.backend (Multiset (Pt K 3))} {exp₁ exp₂ : Multiset (Pt K 3) → Bool} (hR : MapReachable k exp₁ st) (hR' : MapReachable k exp₂ st') (h : Spec.Restored st st')
    (exp : Multiset (Pt K 3) → Bool) (all : Bool) :
    BothOr (fun x y => Spec.Restored x y ∧ Spec.SameClouds x y ∧ Spec.SameMarkers x y) (St.allocateAll k.dyn exp all st) (St.allocateAll k.dyn exp all st') :=
  ((like_reachable k hR hR' h).allocateAll exp all).mono fun _ _ hs =>
    have hi := kind_items k hs.inv.inv hs.inv'.inv hs.restored
    ⟨hs.restored, same_clouds hi, same_markers hi⟩

omit [FloorRing K] in
/-- **C98** (clouds and markers of occupancy maps with `allocate_all`) -/
theorem C98_allocate_all_clouds_occupancy (k : Kind 3) {st st' : St k.backend (Occ Nat (Pt K 3))} {exp₁ exp₂ : Occ Nat (Pt K 3) → Bool} (hR : MapReachable k exp₁ st) (hR' : MapReachable k exp₂ st')
    (h : Spec.Restored st st') (exp : Occ Nat (Pt K 3) → Bool) (all : Bool) :
    BothOr (fun x y => Spec.Restored x y ∧ Spec.SameOccClouds x y ∧ Spec.SameOccMarkers x y) (St.allocateAll k.dyn exp all st) (St.allocateAll k.dyn exp all st') :=
  ((like_reachable k hR hR' h).allocateAll exp all).mono fun _ _ hs =>
    have hi := kind_items k hs.inv.inv hs.inv'.inv hs.restored
    ⟨hs.restored, same_occ_clouds hi, same_occ_markers hi⟩

end

/-! ### loaded maps, other orders of insertion -/

section
variable {K : Type} [Field K] [LinearOrder K] [FloorRing K] {P : Type} {g : Nat → Nat} {g' : Nat}

omit [LinearOrder K] [FloorRing K] in
/-- **C98** (loaded maps). A map that was saved and loaded (any previous directory contents, interleaving of the writers, schedule of the loaders, as in C31) is converted and matched like the original. -/
theorem C98_loaded {d : Nat} {D : Type} [Inhabited D] {exp : D → Bool} (hd : 0 < d) (m : MapObj (octreeBackend d) K P D) (hR : MapReachable (.dynamic g g') exp m.st) (hne : m.st.bundleIndices ≠ [])
    (io : Io K P) (F : Fmt D) (hF : F.reported = F.codec.size) (hok : Storable io F m) (h : Header K P d) (hh : dynHeader m = some h)
    (old : Option Dir) (t : SaveTrace d old (headerBytes io h) (storeFiles io F m))
    (canOpen : Nat → Bool) (sched : List Nat) (hopen : ∀ c ∈ sched, canOpen c = true) (hj : (Threads.run canOpen sched).Joined (2 ^ d))
    (f : Nat → Nat) (f' : Nat) (junk : Nat → D) :
    ∃ m', loadDir io d F (rebuildDynamic f f' junk) canOpen sched (runEffs old t.effects) = .loaded m' ∧
      Spec.SameConversions (.dynamic g g') K m.st m'.st ∧ Spec.SameCosts true m.st m'.st := by
  obtain ⟨m', y1, _, _, y4, y5⟩ := load_restores hd m hR.spec.1 hne io F hF hok h hh old t canOpen sched hopen hj f f' junk
  exact ⟨m', y1, same_conversions (.dynamic g g') (kind_traverse (.dynamic g g') hR.spec.1.inv y5.inv y4) y4.minB y4.maxB, same_costs (like_dynamic hR.spec.1 y5 y4).toAlike⟩

/-- **C98** (grids of loaded maps) -/
theorem C98_loaded_grids {D : Type} [Inhabited D] {exp : D → Bool} (m : MapObj (octreeBackend 2) K P D) (hR : MapReachable (.dynamic g g') exp m.st) (hne : m.st.bundleIndices ≠ [])
    (io : Io K P) (F : Fmt D) (hF : F.reported = F.codec.size) (hok : Storable io F m) (h : Header K P 2) (hh : dynHeader m = some h)
    (old : Option Dir) (t : SaveTrace 2 old (headerBytes io h) (storeFiles io F m))
    (canOpen : Nat → Bool) (sched : List Nat) (hopen : ∀ c ∈ sched, canOpen c = true) (hj : (Threads.run canOpen sched).Joined (2 ^ 2))
    (f : Nat → Nat) (f' : Nat) (junk : Nat → D) :
    ∃ m', loadDir io 2 F (rebuildDynamic f f' junk) canOpen sched (runEffs old t.effects) = .loaded m' ∧ Spec.SameGrids K m.st m'.st := by
  obtain ⟨m', y1, _, _, y4, y5⟩ := load_restores (by decide) m hR.spec.1 hne io F hF hok h hh old t canOpen sched hopen hj f f' junk
  exact ⟨m', y1, same_grids (kind_traverse (.dynamic g g') hR.spec.1.inv y5.inv y4) y4.minB y4.maxB⟩

omit [FloorRing K] in
/-- **C98** (clouds and markers of loaded NDT maps) -/
theorem C98_loaded_clouds {exp : Multiset (Pt K 3) → Bool} (m : MapObj (octreeBackend 3) K P (Multiset (Pt K 3))) (hR : MapReachable (.dynamic g g') exp m.st) (hne : m.st.bundleIndices ≠ [])
    (io : Io K P) (F : Fmt (Multiset (Pt K 3))) (hF : F.reported = F.codec.size) (hok : Storable io F m) (h : Header K P 3) (hh : dynHeader m = some h)
    (old : Option Dir) (t : SaveTrace 3 old (headerBytes io h) (storeFiles io F m))
    (canOpen : Nat → Bool) (sched : List Nat) (hopen : ∀ c ∈ sched, canOpen c = true) (hj : (Threads.run canOpen sched).Joined (2 ^ 3))
    (f : Nat → Nat) (f' : Nat) (junk : Nat → Multiset (Pt K 3)) :
    ∃ m', loadDir io 3 F (rebuildDynamic f f' junk) canOpen sched (runEffs old t.effects) = .loaded m' ∧ Spec.SameClouds m.st m'.st ∧ Spec.SameMarkers m.st m'.st := by
  obtain ⟨m', y1, _, _, y4, y5⟩ := load_restores (by decide) m hR.spec.1 hne io F hF hok h hh old t canOpen sched hopen hj f f' junk
  have hi := kind_items (.dynamic g g') hR.spec.1.inv y5.inv y4
  exact ⟨m', y1, same_clouds hi, same_markers hi⟩

omit [FloorRing K] in
/-- **C98** (clouds and markers of loaded occupancy maps) -/
theorem C98_loaded_clouds_occupancy {exp : Occ Nat (Pt K 3) → Bool} (m : MapObj (octreeBackend 3) K P (Occ Nat (Pt K 3))) (hR : MapReachable (.dynamic g g') exp m.st) (hne : m.st.bundleIndices ≠ [])
    (io : Io K P) (F : Fmt (Occ Nat (Pt K 3))) (hF : F.reported = F.codec.size) (hok : Storable io F m) (h : Header K P 3) (hh : dynHeader m = some h)
    (old : Option Dir) (t : SaveTrace 3 old (headerBytes io h) (storeFiles io F m))
    (canOpen : Nat → Bool) (sched : List Nat) (hopen : ∀ c ∈ sched, canOpen c = true) (hj : (Threads.run canOpen sched).Joined (2 ^ 3))
    (f : Nat → Nat) (f' : Nat) (junk : Nat → Occ Nat (Pt K 3)) :
    ∃ m', loadDir io 3 F (rebuildDynamic f f' junk) canOpen sched (runEffs old t.effects) = .loaded m' ∧ Spec.SameOccClouds m.st m'.st ∧ Spec.SameOccMarkers m.st m'.st := by
  obtain ⟨m', y1, _, _, y4, y5⟩ := load_restores (by decide) m hR.spec.1 hne io F hF hok h hh old t canOpen sched hopen hj f f' junk
  have hi := kind_items (.dynamic g g') hR.spec.1.inv y5.inv y4
  exact ⟨m', y1, same_occ_clouds hi, same_occ_markers hi⟩

variable [IsStrictOrderedRing K]

/-- two sequences of insert calls that accept the same points -/
theorem insertions_restored {d : Nat} (k : Kind d) (geo : Geo K d) (hr : 0 < geo.r) (exp : Multiset (Pt K d) → Bool)
    (st : St k.backend (Multiset (Pt K d))) (hst : Reachable k geo exp st) (l l' : List ((Pt K d → Pt K d) × List (Pt K d)))
    (hl : Spec.accepted geo k (inserts l) = Spec.accepted geo k (inserts l')) (s : St k.backend (Multiset (Pt K d))) (hs : gridRun geo k.dyn exp (inserts l) st = some s) :
    ∃ s', gridRun geo k.dyn exp (inserts l') st = some s' ∧ MapReachable k exp s ∧ MapReachable k exp s' ∧ Spec.Restored s s' := by
  obtain ⟨x, hx, hsame⟩ := C12_only_points_matter k geo hr exp st hst l l' hl s hs
  obtain ⟨ops, hops⟩ := hst
  have hR : MapReachable k exp st := grid_reachable geo k exp ops _ st .init hops
  have hRs : MapReachable k exp s := grid_reachable geo k exp _ _ s hR hs
  have hRx : MapReachable k exp x := grid_reachable geo k exp _ _ x hR hx
  exact ⟨x, hx, hRs, hRx, restored_of_contents k.lawful s x hRs.spec.1.inv hRx.spec.1.inv hsame.bundles hsame.contents hsame.bounds.1 hsame.bounds.2⟩

/-- **C98** (order of insertion). Inserting the same points in another order or in other batches gives the same grids, converted maps and costs. (With exact numbers in the distributions: rounding may make their sums depend on the
order of the points.) -/
theorem C98_insertions (k : Kind 2) (geo : Geo K 2) (hr : 0 < geo.r) (exp : Multiset (Pt K 2) → Bool)
    (st : St k.backend (Multiset (Pt K 2))) (hst : Reachable k geo exp st) (l l' : List ((Pt K 2 → Pt K 2) × List (Pt K 2)))
    (hl : Spec.accepted geo k (inserts l) = Spec.accepted geo k (inserts l')) (s : St k.backend (Multiset (Pt K 2))) (hs : gridRun geo k.dyn exp (inserts l) st = some s) :
    ∃ s', gridRun geo k.dyn exp (inserts l') st = some s' ∧ Spec.SameGrids K s s' ∧ Spec.SameConversions k K s s' ∧ Spec.SameCosts k.dyn s s' ∧ Spec.SameMarkers s s' := by
  obtain ⟨x, hx, h1, h2, h3⟩ := insertions_restored k geo hr exp st hst l l' hl s hs
  exact ⟨x, hx, C98_grids K k h1 h2 h3, C98_conversions k K h1 h2 h3, C98_costs k h1 h2 h3, C98_markers k h1 h2 h3⟩

/-- **C98** (order of insertion, 3D) -/
theorem C98_insertions_clouds (k : Kind 3) (geo : Geo K 3) (hr : 0 < geo.r) (exp : Multiset (Pt K 3) → Bool)
    (st : St k.backend (Multiset (Pt K 3))) (hst : Reachable k geo exp st) (l l' : List ((Pt K 3 → Pt K 3) × List (Pt K 3)))
    (hl : Spec.accepted geo k (inserts l) = Spec.accepted geo k (inserts l')) (s : St k.backend (Multiset (Pt K 3))) (hs : gridRun geo k.dyn exp (inserts l) st = some s) :
    ∃ s', gridRun geo k.dyn exp (inserts l') st = some s' ∧ Spec.SameClouds s s' ∧ Spec.SameMarkers s s' ∧ Spec.SameConversions k K s s' ∧ Spec.SameCosts k.dyn s s' := by
  obtain ⟨x, hx, h1, h2, h3⟩ := insertions_restored k geo hr exp st hst l l' hl s hs
  exact ⟨x, hx, C98_clouds k h1 h2 h3, C98_markers k h1 h2 h3, C98_conversions k K h1 h2 h3, C98_costs k h1 h2 h3⟩

end

/-! ### Non-vacuity -/

/-- the two points of C82, inserted at once or one after the other in the opposite order: the grids are defined and equal -/
example : ∃ (s s' : St (octreeBackend 2) (Multiset (Pt ℚ 2))) (G : Grid ℚ),
    gridRun sampleGeo true (fun _ => true) (inserts bothPoints) ((Kind.dynamic 0 0).init (Multiset (Pt ℚ 2))) = some s ∧
    gridRun sampleGeo true (fun _ => true) (inserts onePoint) ((Kind.dynamic 0 0).init (Multiset (Pt ℚ 2))) = some s' ∧ s.bundleIndices ≠ [] ∧
    toProb 1 (1/4) 0 false (fun x _ => (x.card : ℚ)) s = some G ∧ toProb 1 (1/4) 0 false (fun x _ => (x.card : ℚ)) s' = some G ∧ St.toStatic convDist s' = St.toStatic convDist s := by
  obtain ⟨s, hs⟩ := points_run _ (Or.inl rfl)
  have hne : s.bundleIndices ≠ [] := by
    obtain ⟨hI, _, _, h4⟩ := gridRun_spec (octreeLawful 2) sampleGeo true _ _ _ s (Kind.init_rinv (.dynamic 0 0)) hs
    have := h4 ![1/5, 1/5] (by simp [accOps, accList, inserts, bothPoints, sampleGeo, Abs.valid])
    rw [mem_allocated_iff] at this
    exact List.ne_nil_of_mem ((mem_bundleIndices _ s hI.inv _).2 this)
  have hl : Spec.accepted sampleGeo (Kind.dynamic 0 0) (inserts bothPoints) = Spec.accepted sampleGeo (Kind.dynamic 0 0) (inserts onePoint) := by
    simp only [Spec.accepted, Spec.acceptedPoints, inserts, bothPoints, onePoint, sampleGeo, List.map_cons, List.map_nil, add_zero, ← Multiset.filter_add, id, List.filter_true]
    rw [Multiset.coe_add]
    exact congrArg _ (Multiset.coe_eq_coe.2 (List.Perm.swap ..))
  obtain ⟨s', hs', h1, h2, _, _⟩ := C98_insertions (.dynamic 0 0) sampleGeo (by norm_num [sampleGeo]) (fun _ => true) _ ⟨[], rfl⟩ bothPoints onePoint hl s hs
  have hR : MapReachable (.dynamic 0 0) (fun _ => true) s := grid_reachable sampleGeo (.dynamic 0 0) _ _ _ s .init hs
  obtain ⟨G, hG, _⟩ := C42_safe (.dynamic 0 0) _ s hR hne (fun _ _ h => by cases h) (1 : ℚ) (1/4) (by norm_num) (by norm_num) 0 (probValue false (fun x _ => (x.card : ℚ)) s)
  exact ⟨s, s', G, hs, hs', hne, hG, (h1.prob 1 (1/4) 0 false _).trans hG, h2.toStatic convDist⟩

/-- two static maps with different flags are converted alike -/
example : ∃ st st' : St (arrayBackend 1) (Multiset (Pt ℚ 1)), (st.bundle (fun _ => 1)).map Bundle.expand ≠ (st'.bundle (fun _ => 1)).map Bundle.expand ∧
    Spec.SameConversions (Kind.static (fun _ => 3) (fun _ => 0)) ℚ st st' ∧ Spec.SameCosts false st st' ∧ Spec.SameMarkers st st' := by
  obtain ⟨st, st', h1, h2, h3, h4, h5⟩ := sample_flags
  exact ⟨st, st', by rw [h4, h5]; decide, C98_conversions _ ℚ h1 h2 h3, C98_costs _ h1 h2 h3, C98_markers _ h1 h2 h3⟩

end Ndt
