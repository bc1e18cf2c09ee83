import Verif.Model.MonoFormat
import Verif.Spec.MonoFormat
import Verif.Proofs.SamplingFormat
import Verif.Props.Mono

/-! Property theorem C115: the single-resolution map of floats and of doubles. -/

namespace Ndt
namespace Mono
open Spec

section
variable {K : Type} [Field K] [LinearOrder K] [IsStrictOrderedRing K] [FloorRing K] {d : Nat} {T : Format}

theorem indexF_eq_some (T : Format) (r : K) (p : Pt (Fl K) d) (i : Idx d) : indexF T r p = some i ↔ ∀ a, coordF T r (p a) = some (i a) := by
  unfold indexF
  split
  · rename_i h
    rw [Option.some.injEq]
    constructor
    · intro e a
      have := congrFun e a
      obtain ⟨v, hv⟩ := Option.isSome_iff_exists.1 (h a)
      simp only [hv, Option.getD_some] at this ⊢
      rw [this]
    · intro e; funext a; simp only [e a, Option.getD_some]
  · rename_i h
    simp only [reduceCtorEq, false_iff]
    exact fun e => h fun a => by rw [e a]; rfl

theorem inFormat_double (hT : T = .single ∨ T = .double) {z : K} (h : InFormat T z) : InFormat Format.double z := by
  rcases hT with rfl | rfl
  · obtain ⟨⟨m, e, h1, h2, h3⟩, h4⟩ := h
    refine ⟨⟨m, e, h1.trans_le ?_, le_trans ?_ h2, h3⟩, h4.trans_le (zpow_le_zpow_right₀ one_le_two ?_)⟩ <;> norm_num [Format.single, Format.double]
  · exact h

/-- the cells of the single-resolution map are bundles of a map with twice the resolution -/
theorem indexF_bundle (hT : T = .single ∨ T = .double) {r : K} (hr : 0 < r) (hF : InFormat T r) (p : Pt (Fl K) d) : indexF T r p = toBundleIndexF T (2 * r) p := by
  obtain ⟨ht, _⟩ := scalar_facts hT
  have e : resolutionInvF T r = bundleResolutionInvF T (2 * r) := by
    unfold resolutionInvF bundleResolutionInvF bundleResolutionF
    have e1 : Format.double.round (1 / 2 * (2 * r)) = .fin r := by
      have hD := inFormat_double hT hF
      have e0 : (1 : K) / 2 * (2 * r) = r := by ring
      rw [e0]; unfold Format.round
      rw [Format.double.nearest_fix (by decide) hr.le hD, if_pos hD.2]
    have e2 : T.conv (.fin r) = .fin r := by
      show T.round r = _
      unfold Format.round
      rw [T.nearest_fix ht hr.le hF, if_pos hF.2]
    rw [e1, e2]
  unfold indexF toBundleIndexF coordF coordIndexF
  rw [e]

theorem bounds_double {r : K} (h1 : (2 : K) ^ T.emin ≤ r) (h2 : r ≤ (2 : K) ^ (-T.emin - 1)) : (2 : K) ^ (T.emin + 1) ≤ 2 * r ∧ 2 * r ≤ (2 : K) ^ (-T.emin) := by
  constructor
  · rw [zpow_add₀ two_ne_zero, zpow_one]; linarith
  · rw [show -T.emin = (-T.emin - 1) + 1 by ring, zpow_add₀ two_ne_zero, zpow_one]; linarith

/-- **C115** (containment). For every resolution between the smallest normal number and its inverse, and every point: a point with an index has finite coordinates, and lies in the cell with that index up to three roundings
relative to its distance from the axes and an absolute error of `r * 2^(emin + 1 - t)` (`r * 2^-149` for `float`). Missing: exact containment, which is false (`C77_exact_cell_refuted` for the same arithmetic). -/
theorem C115_near_partial (hT : T = .single ∨ T = .double) (r : K) (h1 : (2 : K) ^ T.emin ≤ r) (h2 : r ≤ (2 : K) ^ (-T.emin - 1)) (hF : InFormat T r) (p : Pt (Fl K) d) (i : Idx d) (h : indexF T r p = some i) :
    ∃ q : Pt K d, (∀ a, p a = .fin (q a)) ∧ NearSquare ((1 + ((2 : K) ^ T.t)⁻¹) ^ 2 * (1 + ((2 : K) ^ 53)⁻¹) - 1) (r * (2 : K) ^ (T.emin + 1 - (T.t : Int))) r i q := by
  obtain ⟨ht, _⟩ := scalar_facts hT
  have hr : 0 < r := (zpow_pos two_pos _).trans_le h1
  obtain ⟨b1, b2⟩ := bounds_double h1 h2
  rw [indexF_bundle hT hr hF] at h
  have hfin : ∀ a, ∃ x, p a = .fin x := by
    intro a
    by_contra hc
    have : toBundleIndexF T (2 * r) p = none := C96_special T (2 * r) p a (by
      cases hp : p a with
      | nan => exact Or.inl rfl
      | inf s => exact Or.inr ⟨s, rfl⟩
      | fin x => exact absurd ⟨x, hp⟩ hc)
    rw [this] at h; cases h
  choose q hq using hfin
  refine ⟨q, hq, fun a => ?_⟩
  have h' : finiteIndexF T (2 * r) q = some i := by
    unfold finiteIndexF
    rw [← funext hq]; exact h
  have hb : toBits T.t (2 * r) = 2 * r := by
    have := toBits_scale (K := K) T.t r 1
    rw [zpow_one, hF.toBits ht] at this
    rw [mul_comm]; exact this
  obtain ⟨n1, n2⟩ := C96_near_bundle hT (2 * r) b1 b2 hb q i h' a
  have e1 : 2 * r / 2 = r := by ring
  have e2 : 2 * r * (2 : K) ^ (T.emin - (T.t : Int)) = r * (2 : K) ^ (T.emin + 1 - (T.t : Int)) := by
    rw [show T.emin + 1 - (T.t : Int) = (T.emin - (T.t : Int)) + 1 by ring, zpow_add₀ two_ne_zero, zpow_one]; ring
  rw [e1, e2] at n1 n2
  exact ⟨n1, n2⟩

/-- **C115** (points away from borders). In maps with resolutions up to 1, points of the scalar type that keep a distance of that relative error from the borders get the index of the cell that contains them. Missing: points near borders. -/
theorem C115_inner_partial (hT : T = .single ∨ T = .double) (r : K) (h1 : (2 : K) ^ T.emin ≤ r) (h2 : r ≤ 1) (hF : InFormat T r) (q : Pt K d) (hq : ∀ a, InFormat T (q a)) (i : Idx d)
    (hi : ∀ a, -2147483648 ≤ i a ∧ i a < 2147483648) (h : InnerSquare ((1 + ((2 : K) ^ T.t)⁻¹) ^ 2 * (1 + ((2 : K) ^ 53)⁻¹) - 1) r i q) :
    indexF T r (fun a => .fin (q a)) = some i := by
  obtain ⟨ht, f53, f1, _⟩ := scalar_facts hT
  have hr : 0 < r := (zpow_pos two_pos _).trans_le h1
  rw [indexF_bundle hT hr hF]
  show finiteIndexF T (2 * r) q = some i
  have hb : toBits T.t (2 * r) = 2 * r := by
    have := toBits_scale (K := K) T.t r 1
    rw [zpow_one, hF.toBits ht] at this
    rw [mul_comm]; exact this
  rw [C96_same_index_fine hT ht (2 * r) (by rw [zpow_add₀ two_ne_zero, zpow_one]; linarith) (by linarith) q hq]
  refine C77_exact_inside (ieeeArith K T.t ht) (2 * r) (by linarith) (C77_half_exact T.t ht f53 _ hb) q i hi fun a => ?_
  have e1 : 2 * r / 2 = r := by ring
  rw [e1]
  exact h a

/-- **C115** (powers of two). In maps whose resolution is a power of two up to 1, the index of every point of the scalar type is the one of the cell that contains it. Missing: other resolutions. -/
theorem C115_power_of_two_partial (hT : T = .single ∨ T = .double) (n : Int) (h1 : T.emin ≤ n) (h2 : n ≤ 0) (q : Pt K d) (hq : ∀ a, InFormat T (q a)) (i : Idx d)
    (hi : ∀ a, -2147483648 ≤ i a ∧ i a < 2147483648) : indexF T ((2 : K) ^ n) (fun a => .fin (q a)) = some i ↔ InSquare ((2 : K) ^ n) i q := by
  obtain ⟨ht, f53, f1, f2, _⟩ := scalar_facts hT
  have e0 : 2 * (2 : K) ^ n = (2 : K) ^ (n + 1) := by rw [zpow_add₀ two_ne_zero, zpow_one, mul_comm]
  rw [indexF_bundle hT (zpow_pos two_pos _) (pow_inFormat hT h1 (by omega)), e0]
  show finiteIndexF T ((2 : K) ^ (n + 1)) q = some i ↔ _
  rw [C96_exact_power_of_two_partial hT (n + 1) (by omega) (by omega) q hq i hi]
  refine forall_congr' fun a => ?_
  rw [show (2 : K) ^ (n + 1) / 2 = (2 : K) ^ n by rw [← e0]; ring]

/-- **C115** (order). The index of a coordinate grows with the coordinate. -/
theorem C115_monotone (hT : T = .single ∨ T = .double) (r : K) (h1 : (2 : K) ^ T.emin ≤ r) (h2 : r ≤ (2 : K) ^ (-T.emin - 1)) (hF : InFormat T r) (p q : Pt K d) (i j : Idx d)
    (hp : indexF T r (fun a => .fin (p a)) = some i) (hq : indexF T r (fun a => .fin (q a)) = some j) (a : Fin d) (hpq : p a ≤ q a) : i a ≤ j a := by
  have hr : 0 < r := (zpow_pos two_pos _).trans_le h1
  obtain ⟨b1, b2⟩ := bounds_double h1 h2
  rw [indexF_bundle hT hr hF] at hp hq
  exact C96_monotone hT (2 * r) b1 b2 p q i j hp hq a hpq

end

section
variable {K : Type} [Field K] [LinearOrder K] [IsStrictOrderedRing K] [FloorRing K] {d : Nat}

omit [IsStrictOrderedRing K] in
theorem insertF_spec (T : Format) (r : K) (tm : Pt (Fl K) d → Pt (Fl K) d) (p : Pt (Fl K) d) (m m' : Mono d (Multiset (Pt (Fl K) d))) (h : m.insertF T r tm p = some m') :
    SameFrame m m' ∧ ∀ i, (m'.store.cells i).getD 0 = (m.store.cells i).getD 0 + if ∃ j, indexF T r (tm p) = some j ∧ m.accepts j = true ∧ j = i then {p} else 0 := by
  unfold insertF toIndexF at h
  cases hi : indexF T r (tm p) with
  | none => rw [hi] at h; cases h
  | some j =>
    rw [hi, Option.map_some, Option.bind_some] at h
    by_cases ha : m.accepts j = true
    · rw [if_pos ha] at h
      obtain ⟨m1, h1, h2⟩ := Option.map_eq_some_iff.1 h
      subst h2
      unfold getAllocate at h1
      split at h1
      · split at h1
        · rename_i s hs
          cases h1
          refine ⟨⟨rfl, rfl, rfl, rfl, rfl⟩, fun i => ?_⟩
          simp only [modify]
          have hs' : m.store.cells j = some s := hs
          by_cases e : j = i
          · subst e
            simp [ha, hs']
          · rw [if_neg (Ne.symm e), if_neg (by rintro ⟨k, hk, _, hk'⟩; cases hk; exact e hk'), add_zero]
        · rename_i hs
          cases h1
          refine ⟨⟨rfl, rfl, rfl, rfl, rfl⟩, fun i => ?_⟩
          simp only [modify]
          have hs' : m.store.cells j = none := hs
          by_cases e : j = i
          · subst e
            simp only [Option.map_some, Option.getD_some, hs', Option.getD_none, ha, if_true, true_and, and_true, exists_eq', Option.some.injEq, exists_eq_left']
            rfl
          · rw [if_neg (Ne.symm e), if_neg (Ne.symm e), if_neg (by rintro ⟨k, hk, _, hk'⟩; cases hk; exact e hk'), add_zero]
      · cases h1
    · rw [if_neg ha] at h
      cases h
      exact ⟨.refl m, fun i => by rw [if_neg (by rintro ⟨k, hk, hk', _⟩; cases hk; exact ha hk'), add_zero]⟩

omit [IsStrictOrderedRing K] in
theorem insertAllF_frame (T : Format) (r : K) (tm : Pt (Fl K) d → Pt (Fl K) d) : ∀ (l : List (Pt (Fl K) d)) (m m' : Mono d (Multiset (Pt (Fl K) d))),
    insertAllF T r tm l m = some m' → SameFrame m m'
  | [], m, m', h => by cases h; exact .refl m
  | p :: l, m, m', h => by
    obtain ⟨m1, h1, h2⟩ := Option.bind_eq_some_iff.1 h
    exact (insertF_spec T r tm p m m1 h1).1.trans (insertAllF_frame T r tm l m1 m' h2)

omit [IsStrictOrderedRing K] in
open scoped Classical in
/-- **C115** (contents). After any sequence of insertions, cell `i` of the array holds exactly the inserted points whose computed index is `i`, as often as they were inserted. -/
theorem C115_contents (T : Format) (r : K) (tm : Pt (Fl K) d → Pt (Fl K) d) (size : Fin d → Nat) (lo : Idx d) (l : List (Pt (Fl K) d)) (m : Mono d (Multiset (Pt (Fl K) d)))
    (h : insertAllF T r tm l (init size lo) = some m) (i : Idx d) (hi : ∀ a, lo a ≤ i a ∧ i a < lo a + size a) :
    (m.store.cells i).getD 0 = (l : Multiset (Pt (Fl K) d)).filter fun p => indexF T r (tm p) = some i := by
  have key : ∀ (l : List (Pt (Fl K) d)) (m m' : Mono d (Multiset (Pt (Fl K) d))), SameFrame (init size lo) m → insertAllF T r tm l m = some m' →
      (m'.store.cells i).getD 0 = (m.store.cells i).getD 0 + (l : Multiset (Pt (Fl K) d)).filter fun p => indexF T r (tm p) = some i := by
    intro l
    induction l with
    | nil => intro m m' _ h; cases h; simp
    | cons p l ih =>
      intro m m' hF h
      obtain ⟨m1, h1, h2⟩ := Option.bind_eq_some_iff.1 h
      obtain ⟨s1, s2⟩ := insertF_spec T r tm p m m1 h1
      rw [ih m1 m' (hF.trans s1) h2, s2 i, ← Multiset.cons_coe, Multiset.filter_cons, add_assoc]
      congr 2
      have hacc : m.accepts i = true := by
        unfold accepts
        rw [decide_eq_true_iff, hF.lo, hF.hi]
        exact fun a => ⟨(hi a).1, (hi a).2.le⟩
      by_cases e : indexF T r (tm p) = some i
      · rw [if_pos ⟨i, e, hacc, rfl⟩, if_pos e]
      · rw [if_neg (by rintro ⟨j, h1, _, rfl⟩; exact e h1), if_neg e]
  rw [key l (init size lo) m (.refl _) h]
  simp [init, Arr.fresh]

/-- **C115** (what is stored where). Every point in a cell was inserted, is finite in map coordinates, and lies in that cell up to the error of `C115_near_partial`; and every inserted point with an index inside of the map is in the cell
with that index as often as it was inserted, and in no other cell. Missing: exact containment. -/
theorem C115_stored_partial [DecidableEq (Pt (Fl K) d)] {T : Format} (hT : T = .single ∨ T = .double) (r : K) (h1 : (2 : K) ^ T.emin ≤ r) (h2 : r ≤ (2 : K) ^ (-T.emin - 1)) (hF : InFormat T r)
    (tm : Pt (Fl K) d → Pt (Fl K) d) (size : Fin d → Nat) (lo : Idx d) (l : List (Pt (Fl K) d)) (m : Mono d (Multiset (Pt (Fl K) d))) (h : insertAllF T r tm l (init size lo) = some m) :
    (∀ i : Idx d, (∀ a, lo a ≤ i a ∧ i a < lo a + size a) → ∀ p ∈ (m.store.cells i).getD 0, p ∈ l ∧ ∃ q : Pt K d, (∀ a, tm p a = .fin (q a)) ∧
      NearSquare ((1 + ((2 : K) ^ T.t)⁻¹) ^ 2 * (1 + ((2 : K) ^ 53)⁻¹) - 1) (r * (2 : K) ^ (T.emin + 1 - (T.t : Int))) r i q) ∧
    ∀ p ∈ l, ∀ i, indexF T r (tm p) = some i → (∀ a, lo a ≤ i a ∧ i a < lo a + size a) → ((m.store.cells i).getD 0).count p = l.count p ∧
      ∀ j : Idx d, (∀ a, lo a ≤ j a ∧ j a < lo a + size a) → j ≠ i → p ∉ (m.store.cells j).getD 0 := by
  classical
  refine ⟨fun i hi p hp => ?_, fun p hp i hpi hi => ⟨?_, fun j hj hne hp' => ?_⟩⟩
  · rw [C115_contents T r tm size lo l m h i hi, Multiset.mem_filter] at hp
    exact ⟨Multiset.mem_coe.1 hp.1, C115_near_partial hT r h1 h2 hF (tm p) i hp.2⟩
  · rw [C115_contents T r tm size lo l m h i hi, Multiset.count_filter_of_pos (p := fun p => indexF T r (tm p) = some i) hpi, Multiset.coe_count]
  · rw [C115_contents T r tm size lo l m h j hj, Multiset.mem_filter, hpi] at hp'
    exact hne (Option.some.inj hp'.2).symm

omit [IsStrictOrderedRing K] in
/-- **C115** (definedness). A sequence of insertions is defined exactly if every point has an index and none has an index in the row behind the last one (`C40_safe_points_partial`). -/
theorem C115_defined (T : Format) (r : K) (tm : Pt (Fl K) d → Pt (Fl K) d) (size : Fin d → Nat) (lo : Idx d) (l : List (Pt (Fl K) d)) :
    (insertAllF T r tm l (init size lo)).isSome = true ↔
      ∀ p ∈ l, ∃ i, indexF T r (tm p) = some i ∧ ((∀ a, lo a ≤ i a ∧ i a < lo a + size a) ∨ ∃ a, i a < lo a ∨ lo a + size a < i a) := by
  have step : ∀ (p : Pt (Fl K) d) (m : Mono d (Multiset (Pt (Fl K) d))), SameFrame (init size lo) m → ((m.insertF T r tm p).isSome = true ↔
      ∃ i, indexF T r (tm p) = some i ∧ ((∀ a, lo a ≤ i a ∧ i a < lo a + size a) ∨ ∃ a, i a < lo a ∨ lo a + size a < i a)) := by
    intro p m hF
    unfold insertF toIndexF
    cases hi : indexF T r (tm p) with
    | none => simp
    | some j =>
      rw [Option.map_some, Option.bind_some]
      have hacc : m.accepts j = true ↔ ∀ a, lo a ≤ j a ∧ j a ≤ lo a + (size a : Int) := by
        unfold accepts
        rw [decide_eq_true_iff, hF.lo, hF.hi]; rfl
      have hbox : m.store.InBox j ↔ ∀ a, lo a ≤ j a ∧ j a < lo a + (size a : Int) := hF.inBox j
      have hrhs : (∃ i, some j = some i ∧ ((∀ a, lo a ≤ i a ∧ i a < lo a + (size a : Int)) ∨ ∃ a, i a < lo a ∨ lo a + (size a : Int) < i a)) ↔
          ((∀ a, lo a ≤ j a ∧ j a < lo a + (size a : Int)) ∨ ∃ a, j a < lo a ∨ lo a + (size a : Int) < j a) := by
        constructor
        · rintro ⟨i, hij, h⟩; cases hij; exact h
        · exact fun h => ⟨j, rfl, h⟩
      rw [hrhs]
      by_cases ha : m.accepts j = true
      · rw [if_pos ha]
        simp only [Option.isSome_map]
        have hno : ¬ ∃ a, j a < lo a ∨ lo a + (size a : Int) < j a := by
          rintro ⟨a, h⟩
          have := hacc.1 ha a
          omega
        rw [or_iff_left hno, ← hbox]
        unfold getAllocate
        by_cases hb : m.store.InBox j
        · rw [if_pos (decide_eq_true hb)]
          cases hc : m.store.cells j <;> simp [hb, hc]
        · rw [if_neg (by rw [decide_eq_true_iff]; exact hb)]
          simp [hb]
      · rw [if_neg ha]
        simp only [Option.isSome_some, true_iff]
        right
        by_contra hc
        refine ha (hacc.2 fun a => ?_)
        have := not_exists.1 hc a
        omega
  have key : ∀ (l : List (Pt (Fl K) d)) (m : Mono d (Multiset (Pt (Fl K) d))), SameFrame (init size lo) m → ((insertAllF T r tm l m).isSome = true ↔
      ∀ p ∈ l, ∃ i, indexF T r (tm p) = some i ∧ ((∀ a, lo a ≤ i a ∧ i a < lo a + size a) ∨ ∃ a, i a < lo a ∨ lo a + size a < i a)) := by
    intro l
    induction l with
    | nil => intro m _; simp [insertAllF]
    | cons p l ih =>
      intro m hF
      rw [List.forall_mem_cons, ← step p m hF, insertAllF]
      cases hm : m.insertF T r tm p with
      | none => simp
      | some m1 =>
        rw [Option.bind_some, ih m1 (hF.trans (insertF_spec T r tm p m m1 hm).1)]
        simp
  exact key l _ (.refl _)

omit [IsStrictOrderedRing K] in
/-- **C115** (sampling). A point that was inserted, with an index inside of the map, is sampled in the distribution that contains it; a point with an index in no row of the map gives 0. -/
theorem C115_sample {V : Type} [Zero V] (T : Format) (r : K) (tm : Pt (Fl K) d → Pt (Fl K) d) (size : Fin d → Nat) (lo : Idx d) (l : List (Pt (Fl K) d)) (m : Mono d (Multiset (Pt (Fl K) d)))
    (h : insertAllF T r tm l (init size lo) = some m) (dens : Multiset (Pt (Fl K) d) → Pt (Fl K) d → V) (p : Pt (Fl K) d) (i : Idx d) (hpi : indexF T r (tm p) = some i) :
    (p ∈ l → (∀ a, lo a ≤ i a ∧ i a < lo a + size a) → ∃ s, m.store.cells i = some s ∧ p ∈ s ∧ m.sampleF T r tm dens p = some (dens s p) ∧ m.validateF T r tm p = some true) ∧
    ((∃ a, i a < lo a ∨ lo a + size a < i a) → m.sampleF T r tm dens p = some 0 ∧ m.validateF T r tm p = some false) := by
  classical
  have hF := insertAllF_frame T r tm l _ m h
  have hacc : m.accepts i = true ↔ ∀ a, lo a ≤ i a ∧ i a ≤ lo a + (size a : Int) := by
    unfold accepts
    rw [decide_eq_true_iff, hF.lo, hF.hi]; rfl
  refine ⟨fun hp hi => ?_, fun hout => ?_⟩
  · have hm : p ∈ (m.store.cells i).getD 0 := by
      rw [C115_contents T r tm size lo l m h i hi, Multiset.mem_filter]
      exact ⟨hp, hpi⟩
    have ha : m.accepts i = true := hacc.2 fun a => ⟨(hi a).1, (hi a).2.le⟩
    cases hs : m.store.cells i with
    | none => rw [hs] at hm; simp at hm
    | some s =>
      rw [hs, Option.getD_some] at hm
      refine ⟨s, rfl, hm, ?_, ?_⟩
      · unfold sampleF toIndexF
        rw [hpi, Option.map_some, if_pos ha, Option.bind_some]
        have hb : m.store.InBox i := (hF.inBox i).2 hi
        show (if (decide (m.store.InBox i)) = true then _ else _) = _
        rw [if_pos (decide_eq_true hb)]
        have hs' : (arrayBackend d).get m.store i = some s := hs
        rw [hs']
      · unfold validateF
        rw [hpi, Option.map_some, ha]
  · have ha : ¬ m.accepts i = true := by
      obtain ⟨a, ha⟩ := hout
      intro hc
      have := hacc.1 hc a
      omega
    constructor
    · unfold sampleF toIndexF
      rw [hpi, Option.map_some, if_neg ha, Option.bind_some]
    · unfold validateF
      rw [hpi, Option.map_some, Bool.eq_false_iff.2 ha]

omit [IsStrictOrderedRing K] in
/-- **C115 (refuted part).** A point that is not finite in map coordinates is not ignored, as in NDT maps, whose insertions test for it: in every single-resolution map, `insert`, `validate` and `sample` convert NaN or an infinity
to `int`, which is undefined. -/
theorem C115_not_finite_refuted {V : Type} [Zero V] (T : Format) (r : K) (tm : Pt (Fl K) d → Pt (Fl K) d) (m : Mono d (Multiset (Pt (Fl K) d))) (p : Pt (Fl K) d) (a : Fin d)
    (h : tm p a = .nan ∨ ∃ s, tm p a = .inf s) (dens : Multiset (Pt (Fl K) d) → Pt (Fl K) d → V) :
    m.insertF T r tm p = none ∧ m.validateF T r tm p = none ∧ m.sampleF T r tm dens p = none := by
  have key : coordF T r (tm p a) = none := by
    unfold coordF
    generalize resolutionInvF T r = y
    rcases h with h | ⟨s, h⟩
    · rw [h]; rfl
    · rw [h]
      cases y with
      | nan => rfl
      | inf b => rfl
      | fin y =>
        show flToInt (T.conv (if y = 0 then _ else _)) = none
        split <;> rfl
  have hidx : indexF T r (tm p) = none := by
    unfold indexF
    rw [if_neg]
    intro hc
    have := hc a
    rw [key] at this
    cases this
  unfold insertF validateF sampleF toIndexF
  rw [hidx]
  exact ⟨rfl, rfl, rfl⟩

end

/-! ### C115, concrete maps -/

/-- the double and the float nearest to 0.1 -/
def tenthD : ℚ := toBits 53 (1 / 10)
def tenthS : ℚ := toBits 24 (1 / 10)

/-- **C115 (refuted part).** The corner that `getMin()` reports need not belong to the map: with resolution 0.1 and minimum index -3 in a map of doubles, or -13 in one of floats, `validate` rejects the point `getMin()`; the product
of the corner with the inverse of the resolution is rounded below the minimum index. -/
theorem C115_corner_refuted :
    (init (fun _ => 8) (fun _ => -3) : Mono 2 (Multiset (Pt (Fl ℚ) 2))).validateF Format.double tenthD id
      ((init (fun _ => 8) (fun _ => -3) : Mono 2 (Multiset (Pt (Fl ℚ) 2))).getMinF Format.double tenthD) = some false ∧
    (init (fun _ => 8) (fun _ => -13) : Mono 2 (Multiset (Pt (Fl ℚ) 2))).validateF Format.single tenthS id
      ((init (fun _ => 8) (fun _ => -13) : Mono 2 (Multiset (Pt (Fl ℚ) 2))).getMinF Format.single tenthS) = some false := by
  decide +kernel

/-- **C115 (refuted part).** The same in static NDT and occupancy maps: with resolution 0.2 and minimum bundle index -3 in double, the point `getMin()` has bundle index -4, which is not valid. -/
theorem C115_ndt_corner_refuted : toBundleIndexF Format.double (2 * tenthD) (ndtMinF Format.double (2 * tenthD) ![-3, -3] : Pt (Fl ℚ) 2) = some ![-4, -4] ∧
    toBits 53 (1 / 5) = 2 * tenthD ∧ ((Kind.static (d := 2) ![3, 3] ![-3, -3]).init (Multiset (Pt ℚ 2))).valid false ![-4, -4] = false := by
  decide +kernel

def monoPoints : List (Pt (Fl ℚ) 2) := [![.fin (1 / 4), .fin (-3 / 8)], ![.fin (1 / 4), .fin (-3 / 8)], ![.fin 40, .fin 0]]

def monoRunF : Option (Mono 2 (Multiset (Pt (Fl ℚ) 2))) := insertAllF Format.single tenthS id monoPoints (init (fun _ => 8) (fun _ => -4))

/-- Non-vacuity of `C115_contents`, `C115_stored_partial`, `C115_defined`, `C115_sample`, `C115_near_partial`: two equal points inside and one outside of a map of floats with resolution 0.1. -/
example : monoRunF.isSome = true ∧ indexF Format.single tenthS (![.fin (1 / 4), .fin (-3 / 8)] : Pt (Fl ℚ) 2) = some ![2, -4] ∧ (monoRunF.bind fun m => (m.store.cells ![2, -4]).map Multiset.card) = some 2 ∧
    indexF Format.single tenthS (![.fin 40, .fin 0] : Pt (Fl ℚ) 2) = some ![400, 0] ∧ (2 : ℚ) ^ Format.single.emin ≤ tenthS ∧ tenthS ≤ 1 ∧ 1 ≤ (2 : ℚ) ^ (-Format.single.emin - 1) := by decide +kernel

example : InFormat Format.single tenthS :=
  ⟨⟨13421773, -27, by norm_num [Format.single], by norm_num [Format.single], by decide +kernel⟩, by decide +kernel⟩

/-- Non-vacuity of `C115_inner_partial` and `C115_power_of_two_partial`. -/
example : InnerSquare ((1 + ((2 : ℚ) ^ Format.single.t)⁻¹) ^ 2 * (1 + ((2 : ℚ) ^ 53)⁻¹) - 1) tenthS ![2, -4] ![1 / 4, -3 / 8] ∧ InSquare ((2 : ℚ) ^ (-2 : Int)) ![1, -2] ![1 / 4, -3 / 8] ∧
    (∀ a : Fin 2, InFormat Format.single ((![1 / 4, -3 / 8] : Pt ℚ 2) a)) := by
  refine ⟨by unfold InnerSquare; decide +kernel, by unfold InSquare; decide +kernel, fun a => ?_⟩
  fin_cases a
  · exact ⟨⟨1, -2, by norm_num [Format.single], by norm_num [Format.single], by norm_num⟩, by norm_num [Format.single]⟩
  · exact ⟨⟨-3, -3, by norm_num [Format.single], by norm_num [Format.single], by norm_num⟩, by norm_num [Format.single]⟩

end Mono
end Ndt
