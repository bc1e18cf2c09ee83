import Verif.Proofs.OccRun

/-! Visibility-aware insertion: misses, and rays that cannot be occluded. -/

namespace Ndt
open St Abs

section
variable {K : Type} [Field K] [LinearOrder K] [FloorRing K] {d : Nat} {W E : Type} [AddCommMonoid W] {B : Backend d}

omit [Field K] [LinearOrder K] [FloorRing K] in
theorem hits_free (l : List (Idx d × Multiset E)) (P : Idx d → Bool) :
    (((((l.map hitOf)).filter (fun e => P e.1)).map Prod.snd).sum : Occ W E).free = 0 := by
  induction l with
  | nil => rfl
  | cons e l ih =>
    rw [List.map_cons, List.filter_cons]
    split
    · rw [List.map_cons, List.sum_cons, Occ.add_free, ih, add_zero]; rfl
    · exact ih

omit [Field K] [LinearOrder K] [FloorRing K] in
theorem misses_samples (f : List (Idx d × W)) (P : Idx d → Bool) :
    (((((f.map missOf)).filter (fun e => P e.1)).map Prod.snd).sum : Occ W E).samples = 0 := by
  induction f with
  | nil => rfl
  | cons e l ih =>
    rw [List.map_cons, List.filter_cons]
    split
    · rw [List.map_cons, List.sum_cons, Occ.samples_add, ih, add_zero]; rfl
    · exact ih

omit [Field K] [LinearOrder K] [FloorRing K] in
theorem hits_samples (l : List (Idx d × Multiset E)) (P : Idx d → Bool) :
    (((((l.map hitOf)).filter (fun e => P e.1)).map Prod.snd).sum : Occ W E).samples = ((l.filter (fun e => P e.1)).map Prod.snd).sum := by
  induction l with
  | nil => rfl
  | cons e l ih =>
    rw [List.map_cons, List.filter_cons, List.filter_cons]
    by_cases hp : P e.1 = true
    · rw [if_pos hp, if_pos (show P (hitOf e : Idx d × Occ W E).1 = true from hp), List.map_cons, List.sum_cons, Occ.samples_add, ih, List.map_cons, List.sum_cons]; rfl
    · rw [if_neg hp, if_neg (show ¬ P (hitOf e : Idx d × Occ W E).1 = true from hp)]; exact ih

/-- the misses of an insertion with removal of hit bundles -/
theorem insertFree_free (fl : Flavour K d W E) (g : Geo K d) (ok : Idx d → Bool) (s : Scan K d W) (P : Idx d → Bool) :
    ((((insertFree fl g ok true s).map missOf).filter (fun e => P e.1)).map Prod.snd : List (Occ W E)).sum.free =
      (((insertEffects { fl with eraseHits := true } g ok s).filter (fun e => P e.1)).map Prod.snd).sum.free := by
  unfold insertEffects
  rw [List.filter_append, List.map_append, List.sum_append, Occ.add_free, hits_free, zero_add]
  rfl

end

section short
variable {K : Type} [Field K] [LinearOrder K] [IsStrictOrderedRing K] [FloorRing K] {d : Nat} {W E : Type} [AddCommMonoid W] {B : Backend d}
variable (L : B.Lawful) (dyn : Bool)

omit [FloorRing K] in
theorem mean_list_mem (f : Nat → K) (n : Nat) (hf : ∀ c, 0 ≤ f c ∧ f c ≤ 1) : ∀ l : List Nat, (l.length : K) ≤ n → 0 < n →
    0 ≤ (l.map fun c => (1 / (n : K)) * f c).sum ∧ (l.map fun c => (1 / (n : K)) * f c).sum ≤ 1 := by
  intro l hl hn
  have hn' : (0 : K) < n := by exact_mod_cast hn
  have key : 0 ≤ (l.map fun c => (1 / (n : K)) * f c).sum ∧ (l.map fun c => (1 / (n : K)) * f c).sum ≤ (1 / (n : K)) * l.length := by
    clear hl
    induction l with
    | nil => simp
    | cons c l ih =>
      have h1 : 0 ≤ 1 / (n : K) := by positivity
      have h2 := mul_nonneg h1 (hf c).1
      have h3 := mul_le_mul_of_nonneg_left (hf c).2 h1
      rw [List.map_cons, List.sum_cons, List.length_cons]
      push_cast
      constructor
      · linarith [ih.1]
      · nlinarith [ih.2]
  refine ⟨key.1, le_trans key.2 ?_⟩
  rw [one_div, inv_mul_le_iff₀ hn', mul_one]
  exact hl

variable {D : Type} [Inhabited D]

theorem occlusionProb_mem (occ : D → K) (ho : ∀ o, 0 ≤ occ o ∧ occ o ≤ 1) (startBi bi : Idx d) (st : St B D) (hI : RInv L dyn st) :
    ∀ (l : List (Fin d)) (x y : K), 0 ≤ x ∧ x ≤ 1 → occlusionProb dyn occ startBi bi st l x = some y → 0 ≤ y ∧ y ≤ 1
  | [], x, y, hx, h => by cases h; exact hx
  | c :: l, x, y, hx, h => by
    unfold occlusionProb at h
    by_cases hvc : st.valid dyn (occlusionIndex startBi bi c) = true
    · rw [if_pos hvc] at h
      by_cases hok : B.ok st.bundles (occlusionIndex startBi bi c) = true
      · obtain ⟨h1, h2⟩ := bundleOccupancy_spec L dyn occ _ st hI hok hvc
        by_cases ha : occlusionIndex startBi bi c ∈ st.abs.allocated
        · rw [h1 ha] at h
          refine occlusionProb_mem occ ho startBi bi st hI l _ y ?_ h
          have hm := mean_list_mem (fun c' => occ (st.abs.val c' (generateIndex (occlusionIndex startBi bi c) c'))) (twoPow d) (fun c' => ho _) (List.range (twoPow d))
            (by rw [List.length_range]) (by rw [twoPow_eq]; positivity)
          exact ⟨le_min hx.1 hm.1, le_trans (min_le_left _ _) hx.2⟩
        · rw [h2 ha] at h
          refine occlusionProb_mem occ ho startBi bi st hI l _ y ?_ h
          exact ⟨le_min hx.1 (le_refl _), le_trans (min_le_left _ _) hx.2⟩
      · have : bundleOccupancy dyn occ (occlusionIndex startBi bi c) st = none := by
          unfold bundleOccupancy getBundle; rw [if_pos hvc, if_neg hok]
        rw [this] at h
        cases h
    · rw [if_neg hvc] at h
      exact occlusionProb_mem occ ho startBi bi st hI l x y hx h

theorem currentVisibility_ge (occ : D → K) (ho : ∀ o, 0 ≤ occ o ∧ occ o ≤ 1) (vm : VisModel K) (startBi bi : Idx d) (st : St B D) (hI : RInv L dyn st)
    (y : K) (hy : currentVisibility dyn occ vm startBi bi st = some y) : min vm.probFree vm.probOcc ≤ y := by
  unfold currentVisibility at hy
  obtain ⟨o, ho', rfl⟩ := Option.map_eq_some_iff.1 hy
  have hm := occlusionProb_mem L dyn occ ho startBi bi st hI (List.finRange d) 1 o ⟨zero_le_one, le_refl _⟩ ho'
  have h1 := min_le_left vm.probFree vm.probOcc
  have h2 := min_le_right vm.probFree vm.probOcc
  nlinarith [hm.1, hm.2]

theorem visRay_pass (occ : D → K) (ho : ∀ o, 0 ≤ occ o ∧ occ o ≤ 1) (vm : VisModel K) (hq0 : 0 ≤ min vm.probFree vm.probOcc) (hq1 : min vm.probFree vm.probOcc ≤ 1)
    (startBi : Idx d) (n : W) (st : St B D) (hI : RInv L dyn st) :
    ∀ (cells : List (Idx d)) (v : K) (a : Nat) (free : List (Idx d × W)) (o : Option (K × List (Idx d × W))), min vm.probFree vm.probOcc ^ a ≤ v →
    vm.probPrior ≤ min vm.probFree vm.probOcc ^ (a + cells.length) → visRay dyn occ vm startBi n st cells v free = some o →
    ∃ v', o = some (v', addRay (st.valid dyn) n cells free) ∧ min vm.probFree vm.probOcc ^ (a + cells.length) ≤ v'
  | [], v, a, free, o, hva, _, h => by cases h; exact ⟨v, rfl, hva⟩
  | bi :: l, v, a, free, o, hva, hp, h => by
    unfold visRay at h
    cases hy : currentVisibility dyn occ vm startBi bi st with
    | none => rw [hy] at h; cases h
    | some y =>
      have hqy := currentVisibility_ge L dyn occ ho vm startBi bi st hI y hy
      have hv0 : 0 ≤ v := le_trans (pow_nonneg hq0 a) hva
      have hstep : min vm.probFree vm.probOcc ^ (a + 1) ≤ v * y := by
        rw [pow_succ]
        exact mul_le_mul hva hqy hq0 hv0
      have hlen : a + (bi :: l).length = (a + 1) + l.length := by rw [List.length_cons]; omega
      rw [hlen] at hp ⊢
      have hmono : min vm.probFree vm.probOcc ^ (a + 1 + l.length) ≤ min vm.probFree vm.probOcc ^ (a + 1) :=
        pow_le_pow_of_le_one hq0 hq1 (by omega)
      rw [hy] at h
      simp only at h
      rw [if_neg (not_lt.2 (le_trans hp (le_trans hmono hstep)))] at h
      exact visRay_pass occ ho vm hq0 hq1 startBi n st hI l (v * y) (a + 1) _ o hstep hp h

omit [Inhabited D] in
theorem visHits_pass (fl : Flavour K d W E) (ray : Pt K d → Pt K d → List (Idx d)) (occ : Occ W E → K) (ho : ∀ o, 0 ≤ occ o ∧ occ o ≤ 1)
    (vm : VisModel K) (hq0 : 0 ≤ min vm.probFree vm.probOcc) (hq1 : min vm.probFree vm.probOcc ≤ 1) (start : Pt K d) (startBi : Idx d) :
    ∀ (updates : List (Idx d × Multiset E)) (free : List (Idx d × W)) (st : St B (Occ W E)), RInv L dyn st →
    (∀ e ∈ updates, vm.probPrior ≤ min vm.probFree vm.probOcc ^ ((ray start (fl.mean e.2)).length + 1)) →
    ∀ o st', visHits fl dyn ray occ vm start startBi updates free st = some (o, st') →
      o = some (rayFree fl (st.valid dyn) ray start updates free) ∧ occAdd dyn (updates.map hitOf) st = some st'
  | [], free, st, _, _, o, st', h => by cases h; exact ⟨rfl, rfl⟩
  | e :: l, free, st, hI, hl, o, st', h => by
    have hle := hl e (List.mem_cons_self ..)
    unfold visHits at h
    cases hr : visRay dyn occ vm startBi (fl.amount e.2) st (ray start (fl.mean e.2)) 1 free with
    | none => rw [hr] at h; cases h
    | some x =>
      obtain ⟨v', rfl, h2⟩ := visRay_pass L dyn occ ho vm hq0 hq1 startBi (fl.amount e.2) st hI (ray start (fl.mean e.2)) 1 0 free x (by simp)
        (le_trans hle (pow_le_pow_of_le_one hq0 hq1 (by omega))) hr
      rw [hr] at h
      simp only at h
      cases hc : currentVisibility dyn occ vm startBi e.1 st with
      | none => rw [hc] at h; cases h
      | some cv =>
        have hqc := currentVisibility_ge L dyn occ ho vm startBi e.1 st hI cv hc
        rw [Nat.zero_add] at h2
        have hend : vm.probPrior ≤ v' * cv := by
          refine le_trans hle ?_
          rw [pow_succ]
          exact mul_le_mul h2 hqc hq0 (le_trans (pow_nonneg hq0 _) h2)
        rw [hc] at h
        simp only at h
        rw [if_pos hend, update_hit_eq] at h
        cases hs1 : occAdd dyn [hitOf e] st with
        | none => rw [hs1] at h; cases h
        | some st1 =>
          rw [hs1] at h
          simp only at h
          obtain ⟨a1, a2, _⟩ := occAdd_spec L dyn _ st st1 hI hs1
          have hvv : st1.valid dyn = st.valid dyn := funext a2.valid
          obtain ⟨b1, b2⟩ := visHits_pass fl ray occ ho vm hq0 hq1 start startBi l _ st1 a1 (fun e' he' => hl e' (List.mem_cons_of_mem _ he')) o st' h
          refine ⟨?_, ?_⟩
          · rw [b1, hvv]; rfl
          · have : occAdd dyn ((e :: l).map hitOf) st = (occAdd dyn [hitOf e] st).bind (occAdd dyn (l.map hitOf)) := by
              rw [← occAdd_append]; rfl
            rw [this, hs1]; exact b2

omit [Inhabited D] in
/-- rays that are short compared to the visibility model are never occluded: the insertion is complete -/
theorem occInsertVisible_pass (fl : Flavour K d W E) (g : Geo K d) (defRay : Pt K d → Pt K d → List (Idx d)) (s : Scan K d W) (occ : Occ W E → K)
    (ho : ∀ o, 0 ≤ occ o ∧ occ o ≤ 1) (vm : VisModel K) (hq0 : 0 ≤ min vm.probFree vm.probOcc) (hq1 : min vm.probFree vm.probOcc ≤ 1)
    (st t : St B (Occ W E)) (hI : RInv L dyn st)
    (hlen : ∀ e ∈ occCollect fl g (st.valid dyn) s.pose s.cloud,
      vm.probPrior ≤ min vm.probFree vm.probOcc ^ ((s.ray (rayStart g s.pose) (fl.mean e.2)).length + 1))
    (h : occInsertVisible fl g dyn defRay s (some occ) (some vm) st = some t) : occInsert { fl with eraseHits := true } g dyn s st = some t := by
  rw [occInsert_eq L _ g dyn s st hI]
  simp only [occInsertVisible] at h
  cases hv : visHits fl dyn s.ray occ vm (rayStart g s.pose) (toBundleIndex g.r (rayStart g s.pose)) (occCollect fl g (st.valid dyn) s.pose s.cloud) [] st with
  | none => rw [hv] at h; cases h
  | some y =>
    obtain ⟨o, st1⟩ := y
    obtain ⟨rfl, h2⟩ := visHits_pass L dyn fl s.ray occ ho vm hq0 hq1 _ _ _ [] st hI hlen o st1 hv
    rw [hv] at h
    simp only [occFree_eq] at h
    unfold insertEffects
    rw [occAdd_append]
    have h2' : occAdd dyn ((occCollect { fl with eraseHits := true } g (st.valid dyn) s.pose s.cloud).map hitOf) st = some st1 := h2
    rw [h2', Option.bind_some]
    exact h

end short
end Ndt
