import Verif.Model.RoundingOcc
import Verif.Spec.RoundedOcc
import Verif.Proofs.OccRun
import Verif.Proofs.Rounding

/-! Lemmas about occupancy maps with rounded quantisation. -/

namespace Ndt
open St Abs

section
variable {K : Type} [Field K] [LinearOrder K] [FloorRing K] {d : Nat} {B : Backend d} {W E : Type} [AddCommMonoid W]

/-- the contributions of an insertion with given updates -/
def effectsOf (fl : Flavour K d W E) (ok : Idx d → Bool) (erase : Bool) (s : Scan K d W) (start : Pt K d) (u : List (Idx d × Multiset E)) : List (Idx d × Occ W E) :=
  u.map hitOf ++ (s.order (if erase then eraseKeys u (rayFree fl ok s.ray start u []) else rayFree fl ok s.ray start u [])).map missOf

theorem foldl_sorted (q : Pt K d → Idx d) : ∀ (l : List (Pt K d)) (u : List (Idx d × Multiset (Pt K d))), (u.map Prod.fst).Pairwise (fun i j => lexLt i j = true) →
    ((l.foldl (fun u p => upsert 0 (fun s => s + {p}) (q p) u) u).map Prod.fst).Pairwise (fun i j => lexLt i j = true)
  | [], _, h => h
  | p :: l, u, h => foldl_sorted q l _ (upsert_sorted _ _ _ u h)

/-- what is collected: the keys are distinct, they are the indices of the accepted points, and the value of a key are the points with that index -/
theorem occCollectR_spec (R : Arith K) (fl : Flavour K d W E) (g : Geo K d) (ok : Idx d → Bool) (pose : Pt K d → Pt K d) (cloud : List (Pt K d)) (u : List (Idx d × Multiset E))
    (h : occCollectR R fl g ok pose cloud = some u) :
    (u.map Prod.fst).Nodup ∧
    (∀ b, b ∈ u.map Prod.fst ↔ ∃ p ∈ accListR R g ok pose (cloud.filter fun p => g.normal p), idxR R g.r p = b) ∧
    (∀ P : Idx d → Bool, ((u.filter (fun e => P e.1)).map Prod.snd).sum =
      (((accListR R g ok pose (cloud.filter fun p => g.normal p)).filter (fun p => P (idxR R g.r p)) : List (Pt K d)) : Multiset (Pt K d)).map fl.sample) ∧
    (∀ e ∈ u, e.2 = (((accListR R g ok pose (cloud.filter fun p => g.normal p)).filter (fun p => decide (idxR R g.r p = e.1)) : List (Pt K d)) : Multiset (Pt K d)).map fl.sample) ∧
    (∀ p ∈ cloud.filter fun p => g.normal p, g.normal (pose p) = true → (toBundleIndexR R g.r (g.toMap (pose p))).isSome) := by
  unfold occCollectR at h
  obtain ⟨v, hv0, rfl⟩ := Option.map_eq_some_iff.1 h
  obtain ⟨hv, hdef⟩ := collectR_eq R g ok pose v _ [] hv0
  have hkeys : ((v.map fun e => (e.1, e.2.map fl.sample)).map Prod.fst) = v.map Prod.fst := by rw [List.map_map]; rfl
  have hnd : (v.map Prod.fst).Nodup := by
    rw [hv]
    exact (foldl_sorted (idxR R g.r) _ [] List.Pairwise.nil).imp fun h e => by subst e; rw [lexLt_irrefl] at h; cases h
  have hsum : ∀ P : Idx d → Bool, (((v.map fun e => (e.1, e.2.map fl.sample)).filter (fun e => P e.1)).map Prod.snd).sum =
      (((accListR R g ok pose (cloud.filter fun p => g.normal p)).filter (fun p => P (idxR R g.r p)) : List (Pt K d)) : Multiset (Pt K d)).map fl.sample := by
    intro P
    have e1 := sum_foldl_upsert (idxR R g.r) P (accListR R g ok pose (cloud.filter fun p => g.normal p)) []
    rw [← hv] at e1
    simp only [List.filter_nil, List.map_nil, List.sum_nil, zero_add] at e1
    rw [← e1]
    clear e1 hv hv0 hdef h hkeys hnd
    induction v with
    | nil => rfl
    | cons e l ih =>
      rw [List.map_cons, List.filter_cons, List.filter_cons]
      by_cases hp : P e.1 = true
      · rw [if_pos hp, if_pos (show P (e.1, e.2.map fl.sample).1 = true from hp), List.map_cons, List.sum_cons, ih, List.map_cons, List.sum_cons, Multiset.map_add]
      · rw [if_neg hp, if_neg (show ¬ P (e.1, e.2.map fl.sample).1 = true from hp), ih]
  refine ⟨by rw [hkeys]; exact hnd, ?_, hsum, ?_, hdef⟩
  · intro b
    rw [hkeys, hv, mem_foldl_upsert]
    simp
  · intro e he
    rw [← hsum (fun b => decide (b = e.1))]
    rw [← hkeys] at hnd
    generalize (v.map fun e => (e.1, e.2.map fl.sample)) = l at he hnd
    induction l with
    | nil => cases he
    | cons x l ih =>
      rw [List.map_cons, List.nodup_cons] at hnd
      rcases List.mem_cons.1 he with rfl | he
      · rw [List.filter_cons_of_pos (by simp), List.filter_eq_nil_iff.2]
        · simp
        · intro y hy
          have : y.1 ≠ e.1 := fun h => hnd.1 (List.mem_map.2 ⟨y, hy, h⟩)
          simpa using this
      · rw [List.filter_cons_of_neg]
        · exact ih he hnd.2
        · have : x.1 ≠ e.1 := fun h => hnd.1 (List.mem_map.2 ⟨e, he, h.symm⟩)
          simpa using this

theorem occCollectR_valid (R : Arith K) (fl : Flavour K d W E) (g : Geo K d) (ok : Idx d → Bool) (pose : Pt K d → Pt K d) (cloud : List (Pt K d)) (u : List (Idx d × Multiset E))
    (h : occCollectR R fl g ok pose cloud = some u) : ∀ e ∈ u, ok e.1 = true := by
  intro e he
  obtain ⟨p, hp, hx⟩ := ((occCollectR_spec R fl g ok pose cloud u h).2.1 e.1).1 (List.mem_map.2 ⟨e, he, rfl⟩)
  rw [← hx]
  unfold accListR at hp
  exact (List.mem_filter.1 hp).2

omit [AddCommMonoid W] in
theorem occCollectR_total (R : Arith K) (fl : Flavour K d W E) (g : Geo K d) (ok : Idx d → Bool) (pose : Pt K d → Pt K d) (cloud : List (Pt K d))
    (h : ∀ p ∈ cloud.filter fun p => g.normal p, g.normal (pose p) = true → (toBundleIndexR R g.r (g.toMap (pose p))).isSome) :
    ∃ u, occCollectR R fl g ok pose cloud = some u := by
  obtain ⟨v, hv⟩ := collectR_total R g ok pose (cloud.filter fun p => g.normal p) [] h
  exact ⟨_, by unfold occCollectR; rw [hv]; rfl⟩

theorem occInsertR_eq (L : B.Lawful) (R : Arith K) (fl : Flavour K d W E) (g : Geo K d) (dyn : Bool) (s : Scan K d W) (st : St B (Occ W E)) (hI : RInv L dyn st) :
    occInsertR R fl g dyn s st = (occCollectR R fl g (st.valid dyn) s.pose s.cloud).bind fun u =>
      occAdd dyn (effectsOf fl (st.valid dyn) fl.eraseHits s (rayStart g s.pose) u) st := by
  unfold occInsertR
  cases hu : occCollectR R fl g (st.valid dyn) s.pose s.cloud with
  | none => rfl
  | some u =>
    simp only [Option.bind_some]
    unfold effectsOf
    rw [occHits_eq L fl dyn _ _ (st.valid dyn) _ _ st hI rfl (occCollectR_valid R fl g _ _ _ u hu), occAdd_append]
    cases occAdd dyn (u.map hitOf) st with
    | none => rfl
    | some st1 => simp only [Option.map_some, occFree_eq, Option.bind_some]

omit [Field K] [LinearOrder K] [FloorRing K] [AddCommMonoid W] in
theorem hitOf_filter (P : Idx d → Bool) (u : List (Idx d × Multiset E)) [AddCommMonoid W] :
    ((((u.map hitOf).filter (fun e => P e.1)).map Prod.snd).sum : Occ W E).free = 0 ∧
    ((((u.map hitOf).filter (fun e => P e.1)).map Prod.snd).sum : Occ W E).samples = ((u.filter (fun e => P e.1)).map Prod.snd).sum := by
  induction u with
  | nil => exact ⟨rfl, rfl⟩
  | cons e l ih =>
    rw [List.map_cons, List.filter_cons, List.filter_cons]
    by_cases hp : P e.1 = true
    · rw [if_pos hp, if_pos (show P (hitOf e : Idx d × Occ W E).1 = true from hp), List.map_cons, List.sum_cons, List.map_cons, List.sum_cons, Occ.add_free, Occ.samples_add, ih.1, ih.2, add_zero]
      exact ⟨rfl, rfl⟩
    · rw [if_neg hp, if_neg (show ¬ P (hitOf e : Idx d × Occ W E).1 = true from hp)]; exact ih

omit [Field K] [LinearOrder K] [FloorRing K] in
theorem missOf_filter (P : Idx d → Bool) (f : List (Idx d × W)) :
    ((((f.map missOf).filter (fun e => P e.1)).map Prod.snd).sum : Occ W E).free = ((f.filter (fun e => P e.1)).map Prod.snd).sum ∧
    ((((f.map missOf).filter (fun e => P e.1)).map Prod.snd).sum : Occ W E).samples = 0 := by
  induction f with
  | nil => exact ⟨rfl, rfl⟩
  | cons e l ih =>
    rw [List.map_cons, List.filter_cons, List.filter_cons]
    by_cases hp : P e.1 = true
    · rw [if_pos hp, if_pos (show P (missOf e : Idx d × Occ W E).1 = true from hp), List.map_cons, List.sum_cons, List.map_cons, List.sum_cons, Occ.add_free, Occ.samples_add, ih.1, ih.2, add_zero]
      exact ⟨rfl, rfl⟩
    · rw [if_neg hp, if_neg (show ¬ P (missOf e : Idx d × Occ W E).1 = true from hp)]; exact ih

theorem effectsOf_samples (fl : Flavour K d W E) (ok : Idx d → Bool) (erase : Bool) (s : Scan K d W) (start : Pt K d) (u : List (Idx d × Multiset E)) (P : Idx d → Bool) :
    (((effectsOf fl ok erase s start u).filter (fun e => P e.1)).map Prod.snd).sum.samples = ((u.filter (fun e => P e.1)).map Prod.snd).sum := by
  unfold effectsOf
  rw [List.filter_append, List.map_append, List.sum_append, Occ.samples_add, (hitOf_filter P u).2, (missOf_filter P _).2, add_zero]

theorem effectsOf_free (fl : Flavour K d W E) (ok : Idx d → Bool) (erase : Bool) (s : Scan K d W) (start : Pt K d) (u : List (Idx d × Multiset E)) (P : Idx d → Bool) :
    (((effectsOf fl ok erase s start u).filter (fun e => P e.1)).map Prod.snd).sum.free =
      (u.map fun e => ((s.ray start (fl.mean e.2)).filter (fun x => ok x && (P x && (!erase || !(u.map Prod.fst).contains x)))).length • fl.amount e.2).sum := by
  unfold effectsOf
  rw [List.filter_append, List.map_append, List.sum_append, Occ.add_free, (hitOf_filter P u).1, (missOf_filter P _).1, zero_add]
  rw [(((s.order_perm _).filter _).map _).sum_eq]
  have h3 := fun Q => sum_rayFree fl ok Q s.ray start u []
  simp only [List.filter_nil, List.map_nil, List.sum_nil, zero_add] at h3
  cases erase with
  | false =>
    simp only [Bool.false_eq_true, if_false, Bool.not_false, Bool.true_or, Bool.and_true]
    exact h3 P
  | true =>
    simp only [if_true, Bool.not_true, Bool.false_or]
    rw [← h3 (fun x => P x && !(u.map Prod.fst).contains x)]
    unfold eraseKeys
    rw [List.filter_filter]

theorem effectsOf_valid (fl : Flavour K d W E) (ok : Idx d → Bool) (erase : Bool) (s : Scan K d W) (start : Pt K d) (u : List (Idx d × Multiset E)) (hu : ∀ e ∈ u, ok e.1 = true) :
    ∀ e ∈ effectsOf fl ok erase s start u, ok e.1 = true := by
  intro e he
  unfold effectsOf at he
  rcases List.mem_append.1 he with he | he
  · obtain ⟨x, hx, rfl⟩ := List.mem_map.1 he
    exact hu x hx
  · obtain ⟨x, hx, rfl⟩ := List.mem_map.1 he
    have hx := (s.order_perm _).mem_iff.1 hx
    have : x ∈ rayFree fl ok s.ray start u [] := by
      revert hx
      cases erase with
      | false => exact id
      | true => intro hx; exact (List.mem_filter.1 hx).1
    exact mem_rayFree fl ok s.ray start u [] (by simp) x.1 (List.mem_map.2 ⟨x, this, rfl⟩)

/-! #### invariants -/

theorem occInsertR_inv (L : B.Lawful) (R : Arith K) (fl : Flavour K d W E) (g : Geo K d) (dyn : Bool) (s : Scan K d W) (st st' : St B (Occ W E)) (hI : RInv L dyn st)
    (h : occInsertR R fl g dyn s st = some st') :
    RInv L dyn st' ∧ Keeps dyn st.abs st'.abs ∧ ∃ u, occCollectR R fl g (st.valid dyn) s.pose s.cloud = some u ∧ ∀ c, c < 2 ^ d → ∀ i, st'.abs.val c i = st.abs.val c i +
      (((effectsOf fl (st.valid dyn) fl.eraseHits s (rayStart g s.pose) u).filter (fun e => decide (generateIndex e.1 c = i))).map Prod.snd).sum := by
  rw [occInsertR_eq L R fl g dyn s st hI] at h
  obtain ⟨u, hu, h⟩ := Option.bind_eq_some_iff.1 h
  obtain ⟨a1, a2, a3, _⟩ := occAdd_spec L dyn _ st st' hI h
  exact ⟨a1, a2, u, hu, a3⟩

/-- Effect of `insertVisible` with models: some of the collected hits and possibly the free updates are applied. -/
theorem occInsertVisibleR_inv (L : B.Lawful) (R : Arith K) (fl : Flavour K d W E) (g : Geo K d) (dyn : Bool) (defRay : Pt K d → Pt K d → List (Idx d)) (s : Scan K d W)
    (occ : Occ W E → K) (vm : VisModel K) (st st' : St B (Occ W E)) (hI : RInv L dyn st) (h : occInsertVisibleR R fl g dyn defRay s (some occ) (some vm) st = some st') :
    RInv L dyn st' ∧ Keeps dyn st.abs st'.abs ∧ ∃ u hs : List (Idx d × Multiset E), occCollectR R fl g (st.valid dyn) s.pose s.cloud = some u ∧ hs.Sublist u ∧ ∀ c, c < 2 ^ d → ∀ i,
      (st'.abs.val c i).samples = (st.abs.val c i).samples + ((hs.filter (fun e => decide (generateIndex e.1 c = i))).map Prod.snd).sum := by
  simp only [occInsertVisibleR] at h
  obtain ⟨u, hu, h⟩ := Option.bind_eq_some_iff.1 h
  obtain ⟨sb, hsb, h⟩ := Option.bind_eq_some_iff.1 h
  cases hv : visHits fl dyn s.ray occ vm (rayStart g s.pose) sb u [] st with
  | none => rw [hv] at h; cases h
  | some x =>
    obtain ⟨o, st1⟩ := x
    rw [hv] at h
    obtain ⟨⟨hs, h1, h2⟩, h3⟩ := visHits_spec L fl dyn _ occ vm _ _ (st.valid dyn) _ _ st hI rfl o st1 hv
    obtain ⟨a1, a2, a3, _⟩ := occAdd_spec L dyn _ st st1 hI h2
    have e1 : ∀ c, c < 2 ^ d → ∀ i, (st1.abs.val c i).samples = (st.abs.val c i).samples + ((hs.filter (fun e => decide (generateIndex e.1 c = i))).map Prod.snd).sum := by
      intro c hc i
      rw [a3 c hc i, Occ.samples_add]
      exact congrArg (_ + ·) (hitOf_filter (fun b => decide (generateIndex b c = i)) hs).2
    cases o with
    | none => cases h; exact ⟨a1, a2, u, hs, hu, h1, e1⟩
    | some f =>
      simp only [occFree_eq] at h
      obtain ⟨b1, b2, b3, _⟩ := occAdd_spec L dyn _ st1 st' a1 h
      refine ⟨b1, a2.trans b2, u, hs, hu, h1, fun c hc i => ?_⟩
      rw [b3 c hc i, Occ.samples_add, e1 c hc i]
      refine (congrArg (_ + ·) (missOf_filter (fun b => decide (generateIndex b c = i)) _).2).trans (add_zero _)

theorem occStepR_inv (L : B.Lawful) (R : Arith K) (fl : Flavour K d W E) (g : Geo K d) (dyn : Bool) (defRay : Pt K d → Pt K d → List (Idx d)) (exp : Occ W E → Bool)
    (op : OccMapOp K d W E) (st st' : St B (Occ W E)) (hI : RInv L dyn st) (h : occStepR R fl g dyn defRay exp op st = some st') :
    RInv L dyn st' ∧ Keeps dyn st.abs st'.abs := by
  cases op with
  | insert s => obtain ⟨a, b, _⟩ := occInsertR_inv L R fl g dyn s st st' hI h; exact ⟨a, b⟩
  | core op => obtain ⟨a, b⟩ := coreStep_spec L dyn exp op st hI st' h; exact ⟨a, b.keeps⟩
  | insertVisible s occ vm =>
    cases occ with
    | none => obtain ⟨a, b, _⟩ := occInsertR_inv L R fl g dyn _ st st' hI h; exact ⟨a, b⟩
    | some occ =>
      cases vm with
      | none => obtain ⟨a, b, _⟩ := occInsertR_inv L R fl g dyn _ st st' hI h; exact ⟨a, b⟩
      | some vm => obtain ⟨a, b, _⟩ := occInsertVisibleR_inv L R fl g dyn defRay s occ vm st st' hI h; exact ⟨a, b⟩

end
end Ndt
