import Verif.Model.OccMap
import Verif.Proofs.Occupancy
import Verif.Proofs.Gridmap

/-! Refinement of insertion into occupancy maps: an insertion is a list of additive contributions to distributions. -/

namespace Ndt
open St Abs

section updateList
variable {d : Nat} {B : Backend d} {D : Type} [Inhabited D]

theorem updateList_append (dyn : Bool) : ∀ (l l' : List (Idx d × (D → D))) (st : St B D),
    updateList dyn (l ++ l') st = (updateList dyn l st).bind (updateList dyn l')
  | [], l', st => rfl
  | e :: l, l', st => by
    simp only [List.cons_append, updateList]
    cases update dyn e.1 e.2 st with
    | none => rfl
    | some s => exact updateList_append dyn l l' s

end updateList

section
variable {K : Type} [Field K] [LinearOrder K] [FloorRing K] {d : Nat} {W E : Type} [AddCommMonoid W] {B : Backend d}

/-- additive contributions -/
def occAdd (dyn : Bool) (l : List (Idx d × Occ W E)) (st : St B (Occ W E)) : Option (St B (Occ W E)) :=
  updateList dyn (l.map fun e => (e.1, fun o => o + e.2)) st

theorem occAdd_append (dyn : Bool) (l l' : List (Idx d × Occ W E)) (st : St B (Occ W E)) :
    occAdd dyn (l ++ l') st = (occAdd dyn l st).bind (occAdd dyn l') := by
  unfold occAdd
  rw [List.map_append, updateList_append]

/-- effect of additive contributions -/
theorem occAdd_spec (L : B.Lawful) (dyn : Bool) (l : List (Idx d × Occ W E)) (st st' : St B (Occ W E)) (hI : RInv L dyn st)
    (h : occAdd dyn l st = some st') :
    RInv L dyn st' ∧ Keeps dyn st.abs st'.abs ∧
    (∀ c, c < 2 ^ d → ∀ i, st'.abs.val c i = st.abs.val c i + ((l.filter (fun e => decide (generateIndex e.1 c = i))).map Prod.snd).sum) ∧
    (∀ bj, st'.abs.flags bj = if bj ∈ l.map Prod.fst then some ((st.abs.flags bj).getD true) else st.abs.flags bj) ∧
    (∀ e ∈ l, st.abs.Good e.1) := by
  unfold occAdd at h
  obtain ⟨h1, h2, h3⟩ := RInv.upds _ st st' hI h
  have hgood := (updateList_refines L dyn _ st hI.inv).2 st' h
  have hgood' : ∀ e ∈ l, st.abs.Good e.1 := fun e he =>
    hgood (e.1, fun s => s + e.2) (List.mem_map.2 ⟨e, he, rfl⟩)
  refine ⟨h1, h3, ?_, ?_, hgood'⟩
  · intro c hc i
    rw [h2]
    exact val_upds_add dyn c hc i l st.abs hI.ainv hI.rng (fun e he => (hgood' e he).1)
  · intro bj
    rw [h2, flags_upds, List.map_map]; rfl

theorem occAdd_total (L : B.Lawful) (dyn : Bool) (l : List (Idx d × Occ W E)) (st : St B (Occ W E)) (hI : RInv L dyn st)
    (hg : ∀ e ∈ l, st.abs.Good e.1) : ∃ st', occAdd dyn l st = some st' := by
  obtain ⟨s, hs, _⟩ := (updateList_refines L dyn (l.map fun e => (e.1, fun o => o + e.2)) st hI.inv).1 (by
    intro e he
    obtain ⟨e', he', rfl⟩ := List.mem_map.1 he
    exact hg e' he')
  exact ⟨s, hs⟩

/-- contribution of a hit and of a free update -/
def hitOf (e : Idx d × Multiset E) : Idx d × Occ W E := (e.1, ⟨0, some e.2⟩)
def missOf (e : Idx d × W) : Idx d × Occ W E := (e.1, ⟨e.2, none⟩)

omit [Field K] [LinearOrder K] [FloorRing K] in
theorem occFree_eq (dyn : Bool) (free : List (Idx d × W)) (st : St B (Occ W E)) : occFree dyn free st = occAdd dyn (free.map missOf) st := by
  unfold occFree occAdd
  rw [List.map_map]
  refine congrArg (updateList dyn · st) (List.map_congr_left fun e _ => ?_)
  exact Prod.ext rfl (funext fun o => Occ.updateFree_eq e.2 o)

theorem update_hit_eq (dyn : Bool) (e : Idx d × Multiset E) (st : St B (Occ W E)) :
    St.update dyn e.1 (fun o => o.updateOccupied e.2) st = occAdd dyn [hitOf e] st := by
  unfold occAdd hitOf
  have : (fun o : Occ W E => o.updateOccupied e.2) = fun o => o + ⟨0, some e.2⟩ := funext fun o => Occ.updateOccupied_eq e.2 o
  rw [this]
  simp only [List.map_cons, List.map_nil, updateList]
  cases update dyn e.1 (fun o => o + ⟨0, some e.2⟩) st <;> rfl

/-- the free updates of all rays -/
def rayFree (fl : Flavour K d W E) (ok : Idx d → Bool) (ray : Pt K d → Pt K d → List (Idx d)) (start : Pt K d) (updates : List (Idx d × Multiset E))
    (free : List (Idx d × W)) : List (Idx d × W) :=
  updates.foldl (fun f e => addRay ok (fl.amount e.2) (ray start (fl.mean e.2)) f) free

theorem occHits_eq (L : B.Lawful) (fl : Flavour K d W E) (dyn : Bool) (ray : Pt K d → Pt K d → List (Idx d)) (start : Pt K d) (ok : Idx d → Bool) :
    ∀ (updates : List (Idx d × Multiset E)) (free : List (Idx d × W)) (st : St B (Occ W E)), RInv L dyn st → st.valid dyn = ok →
    (∀ e ∈ updates, ok e.1 = true) →
    occHits fl dyn ray start updates free st = (occAdd dyn (updates.map hitOf) st).map fun s => (rayFree fl ok ray start updates free, s)
  | [], free, st, _, _, _ => rfl
  | e :: l, free, st, hI, hok, hv => by
    have h1 : (fl.checkValid && !st.valid dyn e.1) = false := by rw [hok, hv e (List.mem_cons_self ..)]; simp
    have happ : occAdd dyn ((e :: l).map hitOf) st = (occAdd dyn [hitOf e] st).bind (occAdd dyn (l.map hitOf)) := by
      rw [← occAdd_append]; rfl
    unfold occHits
    rw [happ, h1]
    simp only [Bool.false_eq_true, if_false, update_hit_eq]
    cases hu : occAdd dyn [hitOf e] st with
    | none => rfl
    | some st1 =>
      obtain ⟨a1, a2, _⟩ := occAdd_spec L dyn _ st st1 hI hu
      have hok1 : st1.valid dyn = ok := by rw [← hok]; exact funext a2.valid
      simp only [Option.bind_some]
      rw [hok1, occHits_eq L fl dyn ray start ok l _ st1 a1 hok1 (fun e' he' => hv e' (List.mem_cons_of_mem _ he'))]
      rfl

theorem occCollect_valid (fl : Flavour K d W E) (g : Geo K d) (ok : Idx d → Bool) (pose : Pt K d → Pt K d) (cloud : List (Pt K d)) :
    ∀ e ∈ occCollect fl g ok pose cloud, ok e.1 = true := by
  intro e he
  obtain ⟨e', he', rfl⟩ := List.mem_map.1 he
  obtain ⟨p, hp, hx⟩ := (mem_collect_keys g ok pose _ e'.1).1 (List.mem_map.2 ⟨e', he', rfl⟩)
  show ok e'.1 = true
  rw [← hx]
  unfold accList at hp
  exact (List.mem_filter.1 hp).2

/-- the free updates of an insertion, in hash order -/
def insertFree (fl : Flavour K d W E) (g : Geo K d) (ok : Idx d → Bool) (erase : Bool) (s : Scan K d W) : List (Idx d × W) :=
  s.order (
    let updates := occCollect fl g ok s.pose s.cloud
    let free := rayFree fl ok s.ray (rayStart g s.pose) updates []
    if erase then eraseKeys updates free else free)

/-- all contributions of an insertion -/
def insertEffects (fl : Flavour K d W E) (g : Geo K d) (ok : Idx d → Bool) (s : Scan K d W) : List (Idx d × Occ W E) :=
  (occCollect fl g ok s.pose s.cloud).map hitOf ++ (insertFree fl g ok fl.eraseHits s).map missOf

theorem occInsert_eq (L : B.Lawful) (fl : Flavour K d W E) (g : Geo K d) (dyn : Bool) (s : Scan K d W) (st : St B (Occ W E)) (hI : RInv L dyn st) :
    occInsert fl g dyn s st = occAdd dyn (insertEffects fl g (st.valid dyn) s) st := by
  unfold occInsert insertEffects
  simp only
  rw [occHits_eq L fl dyn _ _ (st.valid dyn) _ _ st hI rfl (occCollect_valid fl g _ _ _), occAdd_append]
  cases occAdd dyn ((occCollect fl g (st.valid dyn) s.pose s.cloud).map hitOf) st with
  | none => rfl
  | some st1 => simp only [Option.map_some, occFree_eq, Option.bind_some]; rfl

/-! #### visibility -/

theorem visRay_spec {D : Type} (dyn : Bool) (occ : D → K) (vm : VisModel K) (startBi : Idx d) (n : W) (st : St B D) :
    ∀ (cells : List (Idx d)) (v : K) (free : List (Idx d × W)) (v' : K) (free' : List (Idx d × W)),
    visRay dyn occ vm startBi n st cells v free = some (some (v', free')) → free' = addRay (st.valid dyn) n cells free
  | [], v, free, v', free', h => by cases h; rfl
  | bi :: l, v, free, v', free', h => by
    unfold visRay at h
    cases hc : currentVisibility dyn occ vm startBi bi st with
    | none => rw [hc] at h; cases h
    | some cv =>
      rw [hc] at h
      simp only at h
      by_cases hp : v * cv < vm.probPrior
      · rw [if_pos hp] at h; cases h
      · rw [if_neg hp] at h
        exact visRay_spec dyn occ vm startBi n st l _ _ v' free' h

/-- Outcome of the loop of `insertVisible`: some of the hits were applied; if the loop was not left early, the free updates of all rays were collected. -/
theorem visHits_spec (L : B.Lawful) (fl : Flavour K d W E) (dyn : Bool) (ray : Pt K d → Pt K d → List (Idx d)) (occ : Occ W E → K) (vm : VisModel K)
    (start : Pt K d) (startBi : Idx d) (ok : Idx d → Bool) :
    ∀ (updates : List (Idx d × Multiset E)) (free : List (Idx d × W)) (st : St B (Occ W E)), RInv L dyn st → st.valid dyn = ok →
    ∀ (o : Option (List (Idx d × W))) (st' : St B (Occ W E)), visHits fl dyn ray occ vm start startBi updates free st = some (o, st') →
    (∃ hs : List (Idx d × Multiset E), hs.Sublist updates ∧ occAdd dyn (hs.map hitOf) st = some st') ∧
    (∀ f, o = some f → f = rayFree fl ok ray start updates free)
  | [], free, st, _, _, o, st', h => by
    cases h; exact ⟨⟨[], List.Sublist.refl _, rfl⟩, fun f hf => by cases hf; rfl⟩
  | e :: l, free, st, hI, hok, o, st', h => by
    unfold visHits at h
    cases hr : visRay dyn occ vm startBi (fl.amount e.2) st (ray start (fl.mean e.2)) 1 free with
    | none => rw [hr] at h; cases h
    | some x =>
      rw [hr] at h
      cases x with
      | none => cases h; exact ⟨⟨[], List.nil_sublist _, rfl⟩, fun f hf => by cases hf⟩
      | some y =>
        obtain ⟨v, free'⟩ := y
        have hf := visRay_spec _ _ _ _ _ _ _ _ _ _ _ hr
        simp only at h
        cases hc : currentVisibility dyn occ vm startBi e.1 st with
        | none => rw [hc] at h; cases h
        | some cv =>
          rw [hc] at h
          simp only at h
          by_cases hp : vm.probPrior ≤ v * cv
          · rw [if_pos hp] at h
            rw [update_hit_eq] at h
            cases hu : occAdd dyn [hitOf e] st with
            | none => rw [hu] at h; cases h
            | some st1 =>
              rw [hu] at h
              simp only at h
              obtain ⟨a1, a2, _⟩ := occAdd_spec L dyn _ st st1 hI hu
              have hok1 : st1.valid dyn = ok := by rw [← hok]; exact funext a2.valid
              obtain ⟨⟨hs, b1, b2⟩, b3⟩ := visHits_spec L fl dyn ray occ vm start startBi ok l _ st1 a1 hok1 o st' h
              refine ⟨⟨e :: hs, b1.cons_cons e, ?_⟩, ?_⟩
              · have : occAdd dyn ((e :: hs).map hitOf) st = (occAdd dyn [hitOf e] st).bind (occAdd dyn (hs.map hitOf)) := by
                  rw [← occAdd_append]; rfl
                rw [this, hu]; exact b2
              · intro f hf'
                rw [b3 f hf', hf, hok]; rfl
          · rw [if_neg hp] at h
            obtain ⟨⟨hs, b1, b2⟩, b3⟩ := visHits_spec L fl dyn ray occ vm start startBi ok l _ st hI hok o st' h
            refine ⟨⟨hs, b1.cons e, b2⟩, ?_⟩
            intro f hf'
            rw [b3 f hf', hf, hok]; rfl

/-! #### totality of the visibility test -/

section total
variable (L : B.Lawful) (dyn : Bool)

theorem sumOccupancy_eq {D : Type} [Inhabited D] (occ : D → K) (b : Bundle) (st : St B D) (v : Nat → D) :
    ∀ (l : List Nat) (x : K), (∀ c ∈ l, ∃ a, b.data c = some a ∧ st.heap a = v c) →
    sumOccupancy occ b st l x = some (x + (l.map fun c => (1 / (twoPow d : K)) * occ (v c)).sum)
  | [], x, _ => by simp [sumOccupancy]
  | c :: l, x, h => by
    obtain ⟨a, h1, h2⟩ := h c (List.mem_cons_self ..)
    unfold sumOccupancy
    rw [h1]
    simp only
    rw [sumOccupancy_eq occ b st v l _ (fun c' hc' => h c' (List.mem_cons_of_mem _ hc')), h2, List.map_cons, List.sum_cons, add_assoc]

variable {D : Type} [Inhabited D]

/-- the mean occupancy of a bundle -/
theorem bundleOccupancy_spec (occ : D → K) (bi : Idx d) (st : St B D) (hI : RInv L dyn st) (hg : B.ok st.bundles bi = true) (hv : st.valid dyn bi = true) :
    (bi ∈ st.abs.allocated → bundleOccupancy dyn occ bi st =
      some ((List.range (twoPow d)).map fun c => (1 / (twoPow d : K)) * occ (st.abs.val c (generateIndex bi c))).sum) ∧
    (bi ∉ st.abs.allocated → bundleOccupancy dyn occ bi st = some 0) := by
  unfold bundleOccupancy getBundle
  rw [if_pos hv, if_pos hg]
  have hl := look_of_ok B st.bundles bi hg
  cases hb : B.get st.bundles bi with
  | none =>
    refine ⟨fun h => ?_, fun _ => rfl⟩
    rw [mem_allocated_iff] at h; unfold bundle at h; rw [hl, hb] at h; cases h
  | some b =>
    have hb' : st.bundle bi = some b := by unfold bundle; rw [hl, hb]
    refine ⟨fun _ => ?_, fun h => absurd (by rw [mem_allocated_iff, hb']; rfl) h⟩
    have := sumOccupancy_eq occ b st (fun c => st.abs.val c (generateIndex bi c)) (List.range (twoPow d)) 0 (by
      intro c hc
      rw [twoPow_eq, List.mem_range] at hc
      obtain ⟨a, h1, h2⟩ := hI.inv.complete bi b hb' c hc
      refine ⟨a, h1, ?_⟩
      unfold Abs.val
      show _ = (st.content c (generateIndex bi c)).getD default
      unfold St.content; rw [h2]; rfl)
    simp only [this, zero_add]

theorem occlusionProb_total (occ : D → K) (startBi bi : Idx d) (st : St B D) (hI : RInv L dyn st) (hv : ∀ i, st.valid dyn i = true → st.abs.Good i) :
    ∀ (l : List (Fin d)) (x : K), ∃ y, occlusionProb dyn occ startBi bi st l x = some y
  | [], x => ⟨x, rfl⟩
  | c :: l, x => by
    unfold occlusionProb
    by_cases h : st.valid dyn (occlusionIndex startBi bi c) = true
    · rw [if_pos h]
      obtain ⟨h1, h2⟩ := bundleOccupancy_spec L dyn occ _ st hI (hv _ h).1 h
      by_cases ha : occlusionIndex startBi bi c ∈ st.abs.allocated
      · rw [h1 ha]; exact occlusionProb_total occ startBi bi st hI hv l _
      · rw [h2 ha]; exact occlusionProb_total occ startBi bi st hI hv l _
    · rw [if_neg h]; exact occlusionProb_total occ startBi bi st hI hv l _

theorem currentVisibility_total (occ : D → K) (vm : VisModel K) (startBi bi : Idx d) (st : St B D) (hI : RInv L dyn st)
    (hv : ∀ i, st.valid dyn i = true → st.abs.Good i) : ∃ y, currentVisibility dyn occ vm startBi bi st = some y := by
  obtain ⟨y, hy⟩ := occlusionProb_total L dyn occ startBi bi st hI hv (List.finRange d) 1
  unfold currentVisibility; rw [hy]; exact ⟨_, rfl⟩

theorem visRay_total (occ : D → K) (vm : VisModel K) (startBi : Idx d) (n : W) (st : St B D) (hI : RInv L dyn st)
    (hv : ∀ i, st.valid dyn i = true → st.abs.Good i) :
    ∀ (cells : List (Idx d)) (v : K) (free : List (Idx d × W)), ∃ y, visRay dyn occ vm startBi n st cells v free = some y
  | [], v, free => ⟨_, rfl⟩
  | bi :: l, v, free => by
    obtain ⟨cv, hc⟩ := currentVisibility_total L dyn occ vm startBi bi st hI hv
    unfold visRay
    rw [hc]
    simp only
    split
    · exact ⟨_, rfl⟩
    · exact visRay_total occ vm startBi n st hI hv l _ _

end total

theorem visHits_total (L : B.Lawful) (dyn : Bool) (fl : Flavour K d W E) (ray : Pt K d → Pt K d → List (Idx d)) (occ : Occ W E → K) (vm : VisModel K)
    (start : Pt K d) (startBi : Idx d) :
    ∀ (updates : List (Idx d × Multiset E)) (free : List (Idx d × W)) (st : St B (Occ W E)), RInv L dyn st →
    (∀ i, st.valid dyn i = true → st.abs.Good i) → (∀ e ∈ updates, st.valid dyn e.1 = true) →
    ∃ y, visHits fl dyn ray occ vm start startBi updates free st = some y
  | [], free, st, _, _, _ => ⟨_, rfl⟩
  | e :: l, free, st, hI, hv, hu => by
    unfold visHits
    obtain ⟨y, hy⟩ := visRay_total L dyn occ vm startBi (fl.amount e.2) st hI hv (ray start (fl.mean e.2)) 1 free
    rw [hy]
    cases y with
    | none => exact ⟨_, rfl⟩
    | some y =>
      obtain ⟨cv, hc⟩ := currentVisibility_total L dyn occ vm startBi e.1 st hI hv
      simp only [hc]
      split
      · rw [update_hit_eq]
        obtain ⟨st1, h1⟩ := occAdd_total L dyn [hitOf e] st hI (by
          intro e' he'
          rw [List.mem_singleton.1 he']
          exact hv _ (hu e (List.mem_cons_self ..)))
        obtain ⟨a1, a2, _⟩ := occAdd_spec L dyn _ st st1 hI h1
        rw [h1]
        refine visHits_total L dyn fl ray occ vm start startBi l _ st1 a1 ?_ ?_
        · intro i hi; exact (a2.good i).2 (hv i (by rw [← hi]; exact (a2.valid i).symm))
        · intro e' he'; rw [← hu e' (List.mem_cons_of_mem _ he')]; exact a2.valid _
      · exact visHits_total L dyn fl ray occ vm start startBi l _ st hI hv (fun e' he' => hu e' (List.mem_cons_of_mem _ he'))

/-! #### sums over the collected updates -/

omit [Field K] [LinearOrder K] [FloorRing K] in
theorem sum_addRay (ok P : Idx d → Bool) (n : W) : ∀ (cells : List (Idx d)) (free : List (Idx d × W)),
    (((addRay ok n cells free).filter (fun e => P e.1)).map Prod.snd).sum =
      ((free.filter (fun e => P e.1)).map Prod.snd).sum + (cells.filter (fun x => ok x && P x)).length • n
  | [], free => by simp [addRay]
  | x :: l, free => by
    have ih := sum_addRay ok P n l (if ok x then upsert 0 (fun w => w + n) x free else free)
    have e : addRay ok n (x :: l) free = addRay ok n l (if ok x then upsert 0 (fun w => w + n) x free else free) := rfl
    rw [e, ih]
    cases hx : ok x with
    | false =>
      rw [List.filter_cons_of_neg (by rw [hx]; simp)]; simp
    | true =>
      simp only [if_true]
      rw [sum_upsert]
      cases hp : P x with
      | false => rw [List.filter_cons_of_neg (by rw [hx, hp]; simp)]; simp
      | true =>
        rw [List.filter_cons_of_pos (by rw [hx, hp]; simp), List.length_cons, succ_nsmul']
        simp [add_assoc]

omit [Field K] [LinearOrder K] [FloorRing K] in
theorem mem_addRay (ok : Idx d → Bool) (n : W) : ∀ (cells : List (Idx d)) (free : List (Idx d × W)), (∀ x ∈ free.map Prod.fst, ok x = true) →
    ∀ x ∈ (addRay ok n cells free).map Prod.fst, ok x = true
  | [], free, h => h
  | b :: l, free, h => by
    have e : addRay ok n (b :: l) free = addRay ok n l (if ok b then upsert 0 (fun w => w + n) b free else free) := rfl
    rw [e]
    refine mem_addRay ok n l _ ?_
    cases hb : ok b with
    | false => exact h
    | true =>
      intro x hx
      simp only [if_true] at hx
      rcases (mem_upsert_keys _ _ _ _ _).1 hx with rfl | hx
      · exact hb
      · exact h x hx

theorem mem_rayFree (fl : Flavour K d W E) (ok : Idx d → Bool) (ray : Pt K d → Pt K d → List (Idx d)) (start : Pt K d) :
    ∀ (updates : List (Idx d × Multiset E)) (free : List (Idx d × W)), (∀ x ∈ free.map Prod.fst, ok x = true) →
    ∀ x ∈ (rayFree fl ok ray start updates free).map Prod.fst, ok x = true
  | [], free, h => h
  | e :: l, free, h => mem_rayFree fl ok ray start l _ (mem_addRay ok _ _ free h)

theorem sum_rayFree (fl : Flavour K d W E) (ok P : Idx d → Bool) (ray : Pt K d → Pt K d → List (Idx d)) (start : Pt K d) :
    ∀ (updates : List (Idx d × Multiset E)) (free : List (Idx d × W)),
    (((rayFree fl ok ray start updates free).filter (fun e => P e.1)).map Prod.snd).sum =
      ((free.filter (fun e => P e.1)).map Prod.snd).sum +
      (updates.map fun e => ((ray start (fl.mean e.2)).filter (fun x => ok x && P x)).length • fl.amount e.2).sum
  | [], free => by simp [rayFree]
  | e :: l, free => by
    have h : rayFree fl ok ray start (e :: l) free = rayFree fl ok ray start l (addRay ok (fl.amount e.2) (ray start (fl.mean e.2)) free) := rfl
    rw [h, sum_rayFree fl ok P ray start l, sum_addRay, List.map_cons, List.sum_cons, add_assoc]

omit [Field K] [LinearOrder K] [FloorRing K] [AddCommMonoid W] in
theorem upsert_sorted {A : Type} (dflt : A) (f : A → A) (b : Idx d) : ∀ l : List (Idx d × A), (l.map Prod.fst).Pairwise (fun i j => lexLt i j = true) →
    ((upsert dflt f b l).map Prod.fst).Pairwise (fun i j => lexLt i j = true)
  | [], _ => by simp [upsert]
  | (j, e) :: l, h => by
    unfold upsert
    split
    · exact h
    · split
      · rename_i hne hlt
        rw [List.map_cons, List.pairwise_cons]
        refine ⟨?_, h⟩
        intro x hx
        rw [List.map_cons, List.mem_cons] at hx
        rcases hx with rfl | hx
        · exact hlt
        · rw [List.map_cons, List.pairwise_cons] at h
          exact lexLt_trans _ _ _ hlt (h.1 x hx)
      · rename_i hne hnlt
        rw [List.map_cons, List.pairwise_cons] at h ⊢
        refine ⟨?_, upsert_sorted dflt f b l h.2⟩
        intro x hx
        rcases (mem_upsert_keys _ _ _ _ _).1 hx with rfl | hx
        · rcases lexLt_total j x with h1 | h1 | h1
          · exact h1
          · exact absurd h1 hne
          · exact absurd h1 hnlt
        · exact h.1 x hx

theorem collect_sorted (g : Geo K d) (ok : Idx d → Bool) (pose : Pt K d → Pt K d) (cloud : List (Pt K d)) :
    ((collect g ok pose cloud).map Prod.fst).Pairwise (fun i j => lexLt i j = true) := by
  rw [collect_eq]
  have : ∀ (l : List (Pt K d)) (u : List (Idx d × Multiset (Pt K d))), (u.map Prod.fst).Pairwise (fun i j => lexLt i j = true) →
      ((l.foldl (fun u p => upsert 0 (fun s => s + {p}) (toBundleIndex g.r p) u) u).map Prod.fst).Pairwise (fun i j => lexLt i j = true) := by
    intro l
    induction l with
    | nil => intro u h; exact h
    | cons p l ih => intro u h; exact ih _ (upsert_sorted _ _ _ u h)
  exact this _ [] List.Pairwise.nil

theorem collect_nodup (g : Geo K d) (ok : Idx d → Bool) (pose : Pt K d → Pt K d) (cloud : List (Pt K d)) :
    ((collect g ok pose cloud).map Prod.fst).Nodup :=
  (collect_sorted g ok pose cloud).imp fun h e => by subst e; rw [lexLt_irrefl] at h; cases h

/-- the points of an entry are the accepted points with its index -/
theorem collect_value (g : Geo K d) (ok : Idx d → Bool) (pose : Pt K d → Pt K d) (cloud : List (Pt K d)) (e : Idx d × Multiset (Pt K d))
    (he : e ∈ collect g ok pose cloud) :
    e.2 = (((accList g ok pose cloud).filter (fun p => decide (toBundleIndex g.r p = e.1)) : List (Pt K d)) : Multiset (Pt K d)) := by
  rw [← sum_collect g ok pose cloud (fun b => decide (b = e.1))]
  have hnd := collect_nodup g ok pose cloud
  generalize collect g ok pose cloud = l at he hnd
  induction l with
  | nil => cases he
  | cons x l ih =>
    rw [List.map_cons, List.nodup_cons] at hnd
    rcases List.mem_cons.1 he with rfl | he
    · rw [List.filter_cons_of_pos (by simp), List.filter_eq_nil_iff.2]
      · simp
      · intro y hy
        have : y.1 ≠ e.1 := fun h => hnd.1 (List.mem_map.2 ⟨y, hy, h⟩)
        simpa using this
    · rw [List.filter_cons_of_neg]
      · exact ih he hnd.2
      · have : x.1 ≠ e.1 := fun h => hnd.1 (List.mem_map.2 ⟨e, he, h.symm⟩)
        simpa using this

/-- free part of the contributions of an insertion -/
theorem insertEffects_free (fl : Flavour K d W E) (g : Geo K d) (ok : Idx d → Bool) (s : Scan K d W) (P : Idx d → Bool) :
    (((insertEffects fl g ok s).filter (fun e => P e.1)).map Prod.snd).sum.free =
      ((occCollect fl g ok s.pose s.cloud).map fun e => ((s.ray (rayStart g s.pose) (fl.mean e.2)).filter (fun x => ok x && (P x &&
        (!fl.eraseHits || !((occCollect fl g ok s.pose s.cloud).map Prod.fst).contains x)))).length • fl.amount e.2).sum := by
  unfold insertEffects
  rw [List.filter_append, List.map_append, List.sum_append, Occ.add_free]
  have h1 : (((((occCollect fl g ok s.pose s.cloud).map hitOf).filter (fun e => P e.1)).map Prod.snd).sum : Occ W E).free = 0 := by
    generalize occCollect fl g ok s.pose s.cloud = l
    induction l with
    | nil => rfl
    | cons e l ih =>
      rw [List.map_cons, List.filter_cons]
      split
      · rw [List.map_cons, List.sum_cons, Occ.add_free, ih, add_zero]; rfl
      · exact ih
  have h2 : ∀ f : List (Idx d × W), ((((f.map missOf).filter (fun e => P e.1)).map Prod.snd).sum : Occ W E).free =
      ((f.filter (fun e => P e.1)).map Prod.snd).sum := by
    intro f
    induction f with
    | nil => rfl
    | cons e l ih =>
      rw [List.map_cons, List.filter_cons, List.filter_cons]
      by_cases hp : P e.1 = true
      · rw [if_pos hp, if_pos (show P (missOf e : Idx d × Occ W E).1 = true from hp), List.map_cons, List.sum_cons, Occ.add_free, ih, List.map_cons, List.sum_cons]; rfl
      · rw [if_neg hp, if_neg (show ¬ P (missOf e : Idx d × Occ W E).1 = true from hp)]; exact ih
  rw [h1, h2, zero_add]
  unfold insertFree
  rw [(((s.order_perm _).filter _).map _).sum_eq]
  simp only
  have h3 := fun Q => sum_rayFree fl ok Q s.ray (rayStart g s.pose) (occCollect fl g ok s.pose s.cloud) []
  simp only [List.filter_nil, List.map_nil, List.sum_nil, zero_add] at h3
  cases he : fl.eraseHits with
  | false =>
    simp only [Bool.false_eq_true, if_false, Bool.not_false, Bool.true_or, Bool.and_true]
    exact h3 P
  | true =>
    simp only [if_true, Bool.not_true, Bool.false_or]
    rw [← h3 (fun x => P x && !((occCollect fl g ok s.pose s.cloud).map Prod.fst).contains x)]
    unfold eraseKeys
    rw [List.filter_filter]

/-- samples of the contributions of an insertion -/
theorem insertEffects_samples (fl : Flavour K d W E) (g : Geo K d) (ok : Idx d → Bool) (s : Scan K d W) (P : Idx d → Bool) :
    (((insertEffects fl g ok s).filter (fun e => P e.1)).map Prod.snd).sum.samples =
      ((((accList g ok s.pose (s.cloud.filter fun p => g.normal p)).filter (fun p => P (toBundleIndex g.r p)) : List (Pt K d)) : Multiset (Pt K d)).map fl.sample) := by
  unfold insertEffects
  rw [List.filter_append, List.map_append, List.sum_append, Occ.samples_add]
  have h1 : ∀ f : List (Idx d × W), ((((f.map missOf).filter (fun e => P e.1)).map Prod.snd).sum : Occ W E).samples = 0 := by
    intro f
    induction f with
    | nil => rfl
    | cons e l ih =>
      rw [List.map_cons, List.filter_cons]
      split
      · rw [List.map_cons, List.sum_cons, Occ.samples_add, ih, add_zero]; rfl
      · exact ih
  rw [h1, add_zero, ← sum_collect]
  unfold occCollect
  generalize collect g ok s.pose (s.cloud.filter fun p => g.normal p) = l
  induction l with
  | nil => rfl
  | cons e l ih =>
    rw [List.map_cons, List.map_cons, List.filter_cons, List.filter_cons]
    by_cases hp : P e.1 = true
    · rw [if_pos hp, if_pos (show P (hitOf (e.1, e.2.map fl.sample) : Idx d × Occ W E).1 = true from hp), List.map_cons, List.sum_cons, Occ.samples_add, ih, List.map_cons, List.sum_cons, Multiset.map_add]; rfl
    · rw [if_neg hp, if_neg (show ¬ P (hitOf (e.1, e.2.map fl.sample) : Idx d × Occ W E).1 = true from hp)]; exact ih

end
end Ndt
