import Verif.Spec.Export
import Verif.Spec.OccPoints
import Verif.Proofs.OccRun
import Verif.Props.Index
import Mathlib.Algebra.Order.BigOperators.Group.Multiset
import Mathlib.Data.List.Nodup

/-! Lemmas on exports. -/

namespace Ndt
open St

section items
variable {d : Nat} {B : Backend d} {D : Type}

/-- keys of `items`, in the same order -/
def St.itemKeys (st : St B D) : List (Nat × Idx d) :=
  (List.range (twoPow d)).flatMap fun c => (B.traverse (st.storage c)).map fun e => (c, e.1)

theorem itemKeys_nodup (L : B.Lawful) (st : St B D) (hI : ∀ c, L.Inv (st.storage c)) : st.itemKeys.Nodup := by
  unfold itemKeys
  rw [List.nodup_flatMap]
  constructor
  · intro c _
    have := L.nodup_traverse (st.storage c) (hI c)
    rw [List.Nodup, List.pairwise_map] at this ⊢
    exact this.imp fun h e => h (Prod.mk.inj e).2
  · refine List.Nodup.pairwise_of_forall_ne (List.nodup_range) ?_
    intro a _ b _ hab x hx hy
    obtain ⟨_, _, rfl⟩ := List.mem_map.1 hx
    obtain ⟨_, _, e⟩ := List.mem_map.1 hy
    exact hab (Prod.mk.inj e).1.symm

theorem mem_itemKeys (L : B.Lawful) (st : St B D) (hI : ∀ c, L.Inv (st.storage c)) (c : Nat) (k : Idx d) :
    (c, k) ∈ st.itemKeys ↔ c < 2 ^ d ∧ (st.content c k).isSome = true := by
  unfold itemKeys
  rw [List.mem_flatMap]
  constructor
  · rintro ⟨c', hc', h⟩
    obtain ⟨⟨i, a⟩, he, e⟩ := List.mem_map.1 h
    cases e
    refine ⟨by rw [← twoPow_eq]; exact List.mem_range.1 hc', ?_⟩
    unfold content St.dist
    rw [(L.mem_traverse _ (hI c) i a).1 he]
    rfl
  · rintro ⟨hc, h⟩
    unfold content at h
    rw [Option.isSome_map] at h
    obtain ⟨a, ha⟩ := Option.isSome_iff_exists.1 h
    exact ⟨c, List.mem_range.2 (by rw [twoPow_eq]; exact hc), List.mem_map.2 ⟨(k, a), (L.mem_traverse _ (hI c) k a).2 ha, rfl⟩⟩

theorem items_eq [Inhabited D] (L : B.Lawful) (st : St B D) (hI : ∀ c, L.Inv (st.storage c)) :
    st.items = st.itemKeys.map fun e => (e.2, (st.content e.1 e.2).getD default) := by
  unfold items itemKeys
  rw [List.map_flatMap]
  refine List.flatMap_congr fun c _ => ?_
  rw [List.map_map]
  refine List.map_congr_left fun e he => ?_
  have : st.dist c e.1 = some e.2 := (L.mem_traverse _ (hI c) e.1 e.2).1 he
  simp only [Function.comp_apply, content, this, Option.map_some, Option.getD_some]

end items

section mean
variable {K : Type} [Field K] [LinearOrder K] [IsStrictOrderedRing K]

theorem mean_between (s : Multiset K) (hs : s ≠ 0) (lo hi : K) (h : ∀ x ∈ s, lo ≤ x ∧ x < hi) :
    lo ≤ s.sum / (s.card : K) ∧ s.sum / (s.card : K) < hi := by
  have hc : (0 : K) < s.card := by exact_mod_cast Multiset.card_pos.2 hs
  rw [le_div_iff₀ hc, div_lt_iff₀ hc]
  constructor
  · have := Multiset.card_nsmul_le_sum (fun x hx => (h x hx).1)
    rwa [nsmul_eq_mul, mul_comm] at this
  · obtain ⟨x, hx⟩ := Multiset.exists_mem_of_ne_zero hs
    obtain ⟨t, rfl⟩ := Multiset.exists_cons_of_mem hx
    have h1 := Multiset.sum_le_card_nsmul t hi (fun y hy => (h y (Multiset.mem_cons_of_mem hy)).2.le)
    rw [nsmul_eq_mul] at h1
    have h2 := (h x hx).2
    rw [Multiset.sum_cons, Multiset.card_cons, Nat.cast_add, Nat.cast_one, mul_add, mul_one, add_comm]
    rw [mul_comm] at h1
    exact add_lt_add_of_le_of_lt h1 h2

/-- the mean of points of a cell lies in the cell -/
theorem meanPoint_inCell {d : Nat} (r : K) (c : Nat) (k : Idx d) (s : Multiset (Pt K d)) (hs : s ≠ 0) (h : ∀ p ∈ s, Spec.InCell r c k p) :
    Spec.InCell r c k (meanPoint s) := by
  intro a
  have := mean_between (s.map fun p => p a) (fun e => hs (Multiset.map_eq_zero.1 e)) _ _ (by
    intro x hx
    obtain ⟨p, hp, rfl⟩ := Multiset.mem_map.1 hx
    exact h p hp a)
  rwa [Multiset.card_map] at this

end mean

section occ
variable {K : Type} [Field K] [LinearOrder K] [FloorRing K] {d : Nat} {W E : Type} [AddCommMonoid W] {B : Backend d}

/-- all samples of the update of a bundle are points of the bundle -/
def EffectLocal (fl : Flavour K d W E) (r : K) (e : Idx d × Occ W E) : Prop := ∀ x ∈ e.2.samples, ∃ p, x = fl.sample p ∧ toBundleIndex r p = e.1

/-- all samples of the distribution are points of its cell -/
def CellLocal (fl : Flavour K d W E) (r : K) (c : Nat) (i : Idx d) (o : Occ W E) : Prop :=
  ∀ x ∈ o.samples, ∃ p, x = fl.sample p ∧ generateIndex (toBundleIndex r p) c = i

theorem occAdd_local (fl : Flavour K d W E) (r : K) (L : B.Lawful) (dyn : Bool) (l : List (Idx d × Occ W E)) (hl : ∀ e ∈ l, EffectLocal fl r e)
    (st st' : St B (Occ W E)) (hI : RInv L dyn st) (h : occAdd dyn l st = some st') (c : Nat) (hc : c < 2 ^ d) (i : Idx d)
    (h0 : CellLocal fl r c i (st.abs.val c i)) : CellLocal fl r c i (st'.abs.val c i) := by
  intro x hx
  rw [(occAdd_spec L dyn l st st' hI h).2.2.1 c hc i, Occ.samples_add, Multiset.mem_add] at hx
  rcases hx with hx | hx
  · exact h0 x hx
  · rw [show ((((l.filter (fun e => decide (generateIndex e.1 c = i))).map Prod.snd).sum : Occ W E)).samples =
      (((l.filter (fun e => decide (generateIndex e.1 c = i))).map Prod.snd).map Occ.samples).sum from map_list_sum Occ.samplesHom _, List.map_map] at hx
    obtain ⟨m, hm, hxm⟩ : ∃ m ∈ (l.filter (fun e => decide (generateIndex e.1 c = i))).map (Occ.samples ∘ Prod.snd), x ∈ m := by
      generalize (l.filter (fun e => decide (generateIndex e.1 c = i))).map (Occ.samples ∘ Prod.snd) = ms at hx
      induction ms with
      | nil => exact absurd hx (Multiset.notMem_zero x)
      | cons m ms ih =>
        rw [List.sum_cons, Multiset.mem_add] at hx
        rcases hx with hx | hx
        · exact ⟨m, List.mem_cons_self, hx⟩
        · obtain ⟨m', h1, h2⟩ := ih hx
          exact ⟨m', List.mem_cons_of_mem _ h1, h2⟩
    obtain ⟨e, he, rfl⟩ := List.mem_map.1 hm
    obtain ⟨he, hi⟩ := List.mem_filter.1 he
    obtain ⟨p, hp, hb⟩ := hl e he x hxm
    exact ⟨p, hp, by rw [hb]; exact of_decide_eq_true hi⟩

theorem hits_local (fl : Flavour K d W E) (g : Geo K d) (ok : Idx d → Bool) (s : Scan K d W) (hs : List (Idx d × Multiset E))
    (hsub : hs.Sublist (occCollect fl g ok s.pose s.cloud)) : ∀ e ∈ (hs.map hitOf : List (Idx d × Occ W E)), EffectLocal fl g.r e := by
  intro e he
  obtain ⟨y, hy, rfl⟩ := List.mem_map.1 he
  obtain ⟨z, hz, rfl⟩ := List.mem_map.1 (hsub.subset hy)
  intro x hx
  obtain ⟨p, hp, rfl⟩ := Multiset.mem_map.1 (show x ∈ z.2.map fl.sample from hx)
  rw [collect_value g ok s.pose _ z hz, Multiset.mem_coe, List.mem_filter] at hp
  exact ⟨p, rfl, of_decide_eq_true hp.2⟩

theorem misses_local (fl : Flavour K d W E) (r : K) (f : List (Idx d × W)) : ∀ e ∈ (f.map missOf : List (Idx d × Occ W E)), EffectLocal fl r e := by
  intro e he
  obtain ⟨y, hy, rfl⟩ := List.mem_map.1 he
  intro x hx
  exact absurd hx (Multiset.notMem_zero x)

theorem occStep_local (L : B.Lawful) (fl : Flavour K d W E) (g : Geo K d) (dyn : Bool) (defRay : Pt K d → Pt K d → List (Idx d)) (exp : Occ W E → Bool)
    (op : OccMapOp K d W E) (st st' : St B (Occ W E)) (hI : RInv L dyn st) (h : occStep fl g dyn defRay exp op st = some st')
    (c : Nat) (hc : c < 2 ^ d) (i : Idx d) (h0 : CellLocal fl g.r c i (st.abs.val c i)) : CellLocal fl g.r c i (st'.abs.val c i) := by
  have fb : ∀ s', occInsert fl g dyn s' st = some st' → CellLocal fl g.r c i (st'.abs.val c i) := by
    intro s' h
    rw [occInsert_eq L fl g dyn s' st hI] at h
    refine occAdd_local fl g.r L dyn _ ?_ st st' hI h c hc i h0
    intro e he
    rcases List.mem_append.1 he with he | he
    · exact hits_local fl g _ s' _ (List.Sublist.refl _) e he
    · exact misses_local fl g.r _ e he
  cases op with
  | insert s => exact fb s h
  | insertVisible s occ vm =>
    simp only [occStep] at h
    cases occ with
    | none => exact fb _ h
    | some occ =>
      cases vm with
      | none => exact fb _ h
      | some vm =>
        obtain ⟨hs, hsub, h | h⟩ := occInsertVisible_spec L fl g dyn defRay s occ vm st st' hI h
        · exact occAdd_local fl g.r L dyn _ (hits_local fl g _ s hs hsub) st st' hI h c hc i h0
        · refine occAdd_local fl g.r L dyn _ ?_ st st' hI h c hc i h0
          intro e he
          rcases List.mem_append.1 he with he | he
          · exact hits_local fl g _ s hs hsub e he
          · exact misses_local fl g.r _ e he
  | core op =>
    rw [(coreStep_spec L dyn exp op st hI st' h).2.val]
    exact h0

theorem occRun_local (L : B.Lawful) (fl : Flavour K d W E) (g : Geo K d) (dyn : Bool) (defRay : Pt K d → Pt K d → List (Idx d)) (exp : Occ W E → Bool)
    (c : Nat) (hc : c < 2 ^ d) (i : Idx d) :
    ∀ (ops : List (OccMapOp K d W E)) (st st' : St B (Occ W E)), RInv L dyn st → occRun fl g dyn defRay exp ops st = some st' →
    CellLocal fl g.r c i (st.abs.val c i) → CellLocal fl g.r c i (st'.abs.val c i)
  | [], st, st', _, h, h0 => by cases h; exact h0
  | op :: ops, st, st', hI, h, h0 => by
    simp only [occRun] at h
    obtain ⟨st1, h1, h2⟩ := Option.bind_eq_some_iff.1 h
    exact occRun_local L fl g dyn defRay exp c hc i ops st1 st' (occStep_inv L fl g dyn defRay exp op st st1 hI h1).1 h2
      (occStep_local L fl g dyn defRay exp op st st1 hI h1 c hc i h0)

end occ

section folds
variable {K : Type} [Field K] {F : Type}

theorem pushPoint_fold {X : Type} (cast : K → F) (sel : X → Option (Pt K 3 × K)) (l : List X) (tmp : List F) :
    l.foldl (fun tmp x => match sel x with | none => tmp | some y => pushPoint cast tmp y.1 y.2) tmp =
      tmp ++ (l.filterMap sel).flatMap fun y => [cast (y.1 0), cast (y.1 1), cast (y.1 2), cast y.2] := by
  induction l generalizing tmp with
  | nil => simp
  | cons x l ih =>
    rw [List.foldl_cons, ih]
    cases h : sel x with
    | none => simp [h]
    | some y => simp [h, pushPoint]

variable [LinearOrder K] {Q C V : Type} {d : Nat}

theorem markerItem_fold {X : Type} (D : VizDim K d) (v : Viz K d Q C V) (sel : X → Option (K × Multiset (Pt K d))) (l : List X)
    (x : List (Marker K Q C) × Marker K Q C) (hx : x.2.action = .add) :
    (l.foldl (fun x e => match sel e with | none => x | some y => markerItem D v y.1 y.2 x) x).1 =
      x.1 ++ (((l.filterMap sel).filter fun y => (v.eigen y.2).isSome).zipIdx x.2.id).filterMap fun y => Spec.markerFor D v y.2 y.1.1 y.1.2 := by
  induction l generalizing x with
  | nil => simp
  | cons e l ih =>
    rw [List.foldl_cons]
    cases h : sel e with
    | none => rw [ih _ hx]; simp [h]
    | some y =>
      cases hy : v.eigen y.2 with
      | none =>
        rw [ih _ (by simp only [markerItem, hy]; exact hx)]
        simp only [List.filterMap_cons, h, markerItem, hy]
        simp [hy]
      | some z =>
        rw [ih _ (by simp only [markerItem, hy]; exact hx)]
        simp only [List.filterMap_cons, h, markerItem, hy]
        simp only [List.filter_cons, hy, Option.isSome_some, if_true, List.zipIdx_cons, List.filterMap_cons, Spec.markerFor, Option.map_some,
          List.append_assoc, List.singleton_append, hx]
        rfl

end folds
end Ndt
