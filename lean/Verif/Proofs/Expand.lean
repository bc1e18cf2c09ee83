import Verif.Proofs.CoreStep

/-! `allocatePartiallyAllocatedBundles` in closed form, for every kind of map. -/

namespace Ndt
namespace St
open Abs (Keeps Grow)
variable {d : Nat} {B : Backend d} {D : Type} [Inhabited D]

theorem allocPartials_flags (L : B.Lawful) (dyn : Bool) (exp : D → Bool) (st st' : St B D) (hI : RInv L dyn st)
    (h : allocPartials dyn exp st = some st') :
    RInv L dyn st' ∧ Grow dyn st.abs st'.abs ∧ ∀ bj, st'.abs.flags bj =
      if st.abs.trigger exp bj then some false
      else if st.abs.valid dyn bj = true ∧ ∃ bi ∈ st.bundleIndices, st.abs.trigger exp bi ∧ Spec.Neighbour bi bj then some ((st.abs.flags bj).getD true)
      else st.abs.flags bj := by
  have hm : ∀ b ∈ st.bundleIndices, b ∈ st.abs.allocated := by
    intro b hb; rw [mem_allocated_iff]; exact (mem_bundleIndices L st hI.inv b).1 hb
  have hnd := nodup_bundleIndices L st hI.inv
  obtain ⟨h1, h2⟩ := coreStep_spec L dyn exp .expandAll st hI st' h
  obtain ⟨_, x2, _, x4⟩ := (allocPartialList_spec L dyn exp _ st hI hm).1 st' h
  have e := (Abs.flags_allocPartialList dyn exp _ st.abs hI.ainv hI.rng hnd hm (fun b hb ht => x4 b hb hnd ht)).2
  refine ⟨h1, h2, fun bj => ?_⟩
  rw [x2, e bj]
  by_cases ht : st.abs.trigger exp bj
  · have hb : bj ∈ st.bundleIndices := by
      rw [mem_bundleIndices L st hI.inv, ← mem_allocated_iff, Abs.mem_allocated, ht.1]; rfl
    rw [if_pos ht, if_pos ⟨hb, ht⟩]
  · rw [if_neg ht, if_neg (fun x => ht x.2)]

theorem expandable_iff (exp : D → Bool) (A : Abs d D) (bi : Idx d) :
    A.expandable exp bi = true ↔ ∃ c, c < 2 ^ d ∧ ∃ s, A.content c (generateIndex bi c) = some s ∧ exp s = true := by
  unfold Abs.expandable
  rw [List.any_eq_true]
  refine exists_congr fun c => and_congr List.mem_range ?_
  cases A.content c (generateIndex bi c) with
  | none => simp
  | some x => simp

theorem trigger_iff (exp : D → Bool) (st : St B D) (bi : Idx d) :
    st.abs.trigger exp bi ↔ (st.bundle bi).map Bundle.expand = some true ∧
      ∃ c, c < 2 ^ d ∧ ∃ s, st.content c (generateIndex bi c) = some s ∧ exp s = true := by
  unfold Abs.trigger
  rw [expandable_iff]; rfl

/-- nothing to expand: the call returns the map unchanged -/
theorem allocPartialList_id (dyn : Bool) (exp : D → Bool) (L : B.Lawful) (st : St B D) (hI : Inv L st) : ∀ l : List (Idx d),
    (∀ bi ∈ l, bi ∈ st.abs.allocated) → (∀ bi ∈ l, ¬ st.abs.trigger exp bi) → allocPartialList dyn exp l st = some st
  | [], _, _ => rfl
  | bi :: l, h, h' => by
    have hb := h bi (List.mem_cons_self ..)
    rw [mem_allocated_iff] at hb
    obtain ⟨b, hbb⟩ := Option.isSome_iff_exists.1 hb
    have hok : B.ok st.bundles bi = true := by
      unfold bundle Backend.look at hbb; split at hbb
      · assumption
      · cases hbb
    have hget : B.get st.bundles bi = some b := by rw [← look_of_ok B _ _ hok]; exact hbb
    have hn := h' bi (List.mem_cons_self ..)
    have : allocPartial dyn exp bi st = some st := by
      unfold allocPartial
      simp only [hget]
      rw [expandBundle_abs L exp st hI bi b hbb, if_neg]
      intro hc
      rw [Bool.and_eq_true] at hc
      exact hn ⟨by rw [flags_of_bundle st bi b hbb, hc.1], hc.2⟩
    simp only [allocPartialList, this]
    exact allocPartialList_id dyn exp L st hI l (fun b hb => h b (List.mem_cons_of_mem _ hb)) (fun b hb => h' b (List.mem_cons_of_mem _ hb))

theorem neighbour_of_shared (c : Nat) (bi bj : Idx d) (h : generateIndex bi c = generateIndex bj c) : Spec.Neighbour bi bj := by
  intro a
  have h1 := (generateIndex_eq_iff bi _ c).1 rfl a
  have h2 := (generateIndex_eq_iff bj _ c).1 rfl a
  rw [h] at h1
  rw [abs_le]
  split at h1 <;> split at h2 <;> simp_all <;> omega

/-- two calls reach a fixpoint -/
theorem allocPartials_fixpoint (L : B.Lawful) (dyn : Bool) (exp : D → Bool) (hexp : exp default = false) (s0 s1 s2 : St B D) (hI : RInv L dyn s0)
    (h1 : allocPartials dyn exp s0 = some s1) (h2 : allocPartials dyn exp s1 = some s2) : allocPartials dyn exp s2 = some s2 := by
  obtain ⟨I1, G1, f1⟩ := allocPartials_flags L dyn exp s0 s1 hI h1
  obtain ⟨I2, G2, f2⟩ := allocPartials_flags L dyn exp s1 s2 I1 h2
  have hm : ∀ (st : St B D), RInv L dyn st → ∀ b, b ∈ st.bundleIndices ↔ b ∈ st.abs.allocated := by
    intro st hI b; rw [mem_allocated_iff]; exact mem_bundleIndices L st hI.inv b
  refine allocPartialList_id dyn exp L s2 I2.inv _ (fun b hb => (hm s2 I2 b).1 hb) ?_
  intro bi hbi ht
  obtain ⟨tf, te⟩ := ht
  obtain ⟨c, hc, x, hx, hex⟩ := (expandable_iff exp s2.abs bi).1 te
  -- the distribution existed from the start
  have hx0 : s0.abs.content c (generateIndex bi c) = some x := by
    have hv : s0.abs.val c (generateIndex bi c) = x := by
      rw [← G1.val, ← G2.val]; unfold Abs.val; rw [hx]; rfl
    unfold Abs.val at hv
    cases h0 : s0.abs.content c (generateIndex bi c) with
    | some y => rw [h0] at hv; exact congrArg some hv
    | none =>
      rw [h0] at hv
      have : x = default := hv.symm
      rw [this, hexp] at hex; cases hex
  obtain ⟨_, bj, hbj, hg⟩ := (hI.ainv.used c (generateIndex bi c)).1 (by rw [hx0]; rfl)
  have hnb : Spec.Neighbour bj bi := neighbour_of_shared c bj bi hg
  have hej : s0.abs.expandable exp bj = true := (expandable_iff exp s0.abs bj).2 ⟨c, hc, x, by rw [hg]; exact hx0, hex⟩
  -- `bi` is allocated after the first call
  have hvalid : s0.abs.valid dyn bi = true → bi ∈ s1.abs.allocated := by
    intro hv
    rw [Abs.mem_allocated] at hbj
    obtain ⟨fl, hfl⟩ := Option.isSome_iff_exists.1 hbj
    cases fl with
    | false => exact G1.allocated (hI.closed bj hfl bi hv hnb)
    | true =>
      rw [Abs.mem_allocated, f1]
      split
      · rfl
      · rw [if_pos ⟨hv, bj, (hm s0 hI bj).2 (by rw [Abs.mem_allocated, hfl]; rfl), ⟨hfl, hej⟩, hnb⟩]; rfl
  have hb1 : bi ∈ s1.abs.allocated := by
    have hb2 := (hm s2 I2 bi).1 hbi
    rw [Abs.mem_allocated, f2] at hb2
    by_cases t1 : s1.abs.trigger exp bi
    · rw [Abs.mem_allocated, t1.1]; rfl
    · rw [if_neg t1] at hb2
      split at hb2
      · rename_i hv
        exact hvalid (by rw [← G1.valid]; exact hv.1)
      · exact hb2
  have he1 : s1.abs.expandable exp bi = true := by
    rw [← Abs.expandable_grow I1.ainv G2 exp bi hb1]; exact te
  rw [Abs.mem_allocated] at hb1
  obtain ⟨fl, hfl⟩ := Option.isSome_iff_exists.1 hb1
  rw [f2] at tf
  cases fl with
  | true => rw [if_pos ⟨hfl, he1⟩] at tf; cases tf
  | false =>
    rw [if_neg (fun t => by rw [t.1] at hfl; cases hfl), hfl] at tf
    split at tf <;> cases tf

end St
end Ndt
