import Verif.Proofs.Mono
import Verif.Props.Gridmap
import Verif.Props.Sampling
import Mathlib.Algebra.Order.Floor.Ring
import Mathlib.Tactic.Positivity
import Mathlib.Tactic.FieldSimp

/-! Property theorems C40, C41, C54, C55: the single-resolution map and merging. -/

namespace Ndt
namespace Mono
variable {K : Type} [Field K] [LinearOrder K] [IsStrictOrderedRing K] [FloorRing K] {d : Nat}

theorem index_eq_iff {r : K} (hr : 0 < r) (p : Pt K d) (i : Idx d) : index r p = i ↔ ∀ a, (i a : K) * r ≤ p a ∧ p a < ((i a : K) + 1) * r := by
  unfold index
  rw [funext_iff]
  refine forall_congr' fun a => ?_
  rw [Int.floor_eq_iff, mul_one_div, le_div_iff₀ hr, div_lt_iff₀ hr]

theorem insert_frame (g : Geo K d) (p : Pt K d) (m m' : Mono d (Multiset (Pt K d))) (h : m.insert g p = some m') : SameFrame m m' := by
  unfold Mono.insert at h
  cases ht : m.toIndex g p with
  | none => rw [ht] at h; cases h; exact .refl m
  | some i =>
    rw [ht] at h
    obtain ⟨m1, h1, h2⟩ := Option.map_eq_some_iff.1 h
    subst h2
    unfold getAllocate at h1
    split at h1
    · split at h1
      · cases h1; exact ⟨rfl, rfl, rfl, rfl, rfl⟩
      · cases h1; exact ⟨rfl, rfl, rfl, rfl, rfl⟩
    · cases h1

theorem insertAll_frame (g : Geo K d) : ∀ (l : List (Pt K d)) (m m' : Mono d (Multiset (Pt K d))), insertAll g l m = some m' → SameFrame m m'
  | [], m, m', h => by cases h; exact .refl m
  | p :: l, m, m', h => by
    obtain ⟨m1, h1, h2⟩ := Option.bind_eq_some_iff.1 h
    exact (insert_frame g p m m1 h1).trans (insertAll_frame g l m1 m' h2)

/-- The box `[lo * r, (lo + size + e) * r)`. -/
def InArea (r : K) (size : Fin d → Nat) (lo : Idx d) (e : K) (q : Pt K d) : Prop := ∀ a, (lo a : K) * r ≤ q a ∧ q a < ((lo a : K) + size a + e) * r

theorem index_le {r : K} (hr : 0 < r) (q : K) (n : Int) : n ≤ ⌊q * (1 / r)⌋ ↔ (n : K) * r ≤ q := by
  rw [Int.le_floor, mul_one_div, le_div_iff₀ hr]

theorem index_lt {r : K} (hr : 0 < r) (q : K) (n : Int) : ⌊q * (1 / r)⌋ < n ↔ q < (n : K) * r := by
  rw [Int.floor_lt, mul_one_div, div_lt_iff₀ hr]

theorem accepts_iff {r : K} (hr : 0 < r) (size : Fin d → Nat) (lo : Idx d) {D : Type} (m : Mono d D) (h : SameFrame (init size lo) m) (q : Pt K d) :
    m.accepts (index r q) = true ↔ InArea r size lo 1 q := by
  unfold accepts InArea
  rw [decide_eq_true_iff, h.lo, h.hi]
  refine forall_congr' fun a => ?_
  show lo a ≤ ⌊q a * (1 / r)⌋ ∧ ⌊q a * (1 / r)⌋ ≤ lo a + (size a : Int) ↔ _
  rw [index_le hr, ← Int.lt_add_one_iff, index_lt hr]
  push_cast
  rfl

theorem inBox_iff {r : K} (hr : 0 < r) (size : Fin d → Nat) (lo : Idx d) {D : Type} (m : Mono d D) (h : SameFrame (init size lo) m) (q : Pt K d) :
    m.store.InBox (index r q) ↔ InArea r size lo 0 q := by
  rw [h.inBox]
  unfold Arr.InBox InArea
  refine forall_congr' fun a => ?_
  show lo a ≤ ⌊q a * (1 / r)⌋ ∧ ⌊q a * (1 / r)⌋ < lo a + (size a : Int) ↔ _
  rw [index_le hr, index_lt hr]
  push_cast
  rw [add_zero]

theorem insert_isSome {r : K} (g : Geo K d) (p : Pt K d) (m : Mono d (Multiset (Pt K d))) :
    (m.insert g p).isSome = true ↔ m.accepts (index g.r (g.toMap p)) = false ∨ m.store.InBox (index g.r (g.toMap p)) := by
  unfold Mono.insert toIndex getAllocate
  cases ha : m.accepts (index g.r (g.toMap p)) with
  | false => simp
  | true =>
    simp only [if_true, Option.isSome_map]
    by_cases hb : m.store.InBox (index g.r (g.toMap p))
    · rw [if_pos (decide_eq_true hb)]
      cases hc : m.store.cells (index g.r (g.toMap p)) <;> simp [hb, hc]
    · rw [if_neg (by rw [decide_eq_true_iff]; exact hb)]
      simp [hb]

/-- **C40 refuted.** In every single-resolution map (any size, any offset, any content, any rigid origin, any resolution) there is a point that `validate` accepts and for which `insert`, `sample` and
`sampleNonNormalized` access the array out of range: the row behind the last one is accepted. -/
theorem C40_out_of_range_refuted (hd : 0 < d) (g : Geo K d) (hr : 0 < g.r) (hT : ∀ q, ∃ p, g.toMap p = q) (size : Fin d → Nat) (lo : Idx d) (l : List (Pt K d))
    (m : Mono d (Multiset (Pt K d))) (h : insertAll g l (init size lo) = some m) :
    ∃ p, m.validate g p = true ∧ m.insert g p = none ∧ ∀ dens : Multiset (Pt K d) → Pt K d → K, m.sample g dens p = none := by
  have hF := insertAll_frame g l _ m h
  obtain ⟨p, hp⟩ := hT fun a => ((lo a : K) + size a) * g.r
  have h1 : m.accepts (index g.r (g.toMap p)) = true := by
    rw [accepts_iff hr size lo m hF, hp]
    intro a
    have : (0 : K) ≤ size a := Nat.cast_nonneg _
    exact ⟨mul_le_mul_of_nonneg_right (by linarith) hr.le, mul_lt_mul_of_pos_right (by linarith) hr⟩
  have h2 : ¬ m.store.InBox (index g.r (g.toMap p)) := by
    rw [inBox_iff hr size lo m hF, hp]
    intro hc
    have := (hc ⟨0, hd⟩).2
    rw [add_zero] at this
    exact lt_irrefl _ this
  refine ⟨p, h1, ?_, fun dens => ?_⟩
  · have := (insert_isSome (r := g.r) g p m).not.2 (by rw [not_or]; exact ⟨by rw [h1]; decide, h2⟩)
    rw [Bool.not_eq_true, Option.isSome_eq_false_iff, Option.isNone_iff_eq_none] at this
    exact this
  · unfold Mono.sample toIndex sampleIdx
    rw [if_pos h1]
    simp only
    rw [if_neg (by rw [decide_eq_true_iff]; exact h2)]

/-- **C40** (partial): exactly which points are safe, in every single-resolution map: those inside of `[lo*r, (lo+size)*r)` and those outside of `[lo*r, (lo+size+1)*r)`. -/
theorem C40_safe_points_partial (g : Geo K d) (hr : 0 < g.r) (size : Fin d → Nat) (lo : Idx d) (l : List (Pt K d))
    (m : Mono d (Multiset (Pt K d))) (h : insertAll g l (init size lo) = some m) (p : Pt K d) :
    (m.validate g p = true ↔ InArea g.r size lo 1 (g.toMap p)) ∧
    ((m.insert g p).isSome = true ↔ InArea g.r size lo 0 (g.toMap p) ∨ ¬ InArea g.r size lo 1 (g.toMap p)) := by
  have hF := insertAll_frame g l _ m h
  refine ⟨accepts_iff hr size lo m hF _, ?_⟩
  rw [insert_isSome (r := g.r), inBox_iff hr size lo m hF, ← accepts_iff hr size lo m hF, Bool.not_eq_true, or_comm]

theorem insert_cells (g : Geo K d) (p : Pt K d) (m m' : Mono d (Multiset (Pt K d))) (h : m.insert g p = some m') (i : Idx d) :
    (m'.store.cells i).getD 0 = (m.store.cells i).getD 0 + if m.accepts (index g.r (g.toMap p)) = true ∧ index g.r (g.toMap p) = i then {p} else 0 := by
  unfold Mono.insert toIndex at h
  by_cases ha : m.accepts (index g.r (g.toMap p)) = true
  · rw [if_pos ha] at h
    obtain ⟨m1, h1, h2⟩ := Option.map_eq_some_iff.1 h
    subst h2
    unfold getAllocate at h1
    split at h1
    · split at h1
      · rename_i s hs
        cases h1
        simp only [modify]
        by_cases hi : index g.r (g.toMap p) = i
        · subst hi
          have hs' : m.store.cells (index g.r (g.toMap p)) = some s := hs
          simp [ha, hs']
        · rw [if_neg (Ne.symm hi), if_neg (by rintro ⟨_, h⟩; exact hi h), add_zero]
      · rename_i hs
        cases h1
        simp only [modify]
        by_cases hi : index g.r (g.toMap p) = i
        · subst hi
          have hs' : m.store.cells (index g.r (g.toMap p)) = none := hs
          simp only [Option.map_some, Option.getD_some, hs', Option.getD_none, ha, and_self, if_true]
          rfl
        · rw [if_neg (Ne.symm hi), if_neg (Ne.symm hi), if_neg (by rintro ⟨_, h⟩; exact hi h), add_zero]
    · cases h1
  · rw [if_neg ha] at h
    cases h
    rw [if_neg (by rintro ⟨h, _⟩; exact ha h), add_zero]

open scoped Classical in
/-- **C54.** After any sequence of insertions into a single-resolution map, the distribution of cell `i` of the array consists of exactly the inserted points (in world coordinates) whose map
coordinates lie in the cell. -/
theorem C54_mono_contents (g : Geo K d) (hr : 0 < g.r) (size : Fin d → Nat) (lo : Idx d) (l : List (Pt K d))
    (m : Mono d (Multiset (Pt K d))) (h : insertAll g l (init size lo) = some m) (i : Idx d) (hi : ∀ a, lo a ≤ i a ∧ i a < lo a + size a) :
    (m.store.cells i).getD 0 = (l : Multiset (Pt K d)).filter fun p => ∀ a, (i a : K) * g.r ≤ g.toMap p a ∧ g.toMap p a < ((i a : K) + 1) * g.r := by
  have key : ∀ (l : List (Pt K d)) (m m' : Mono d (Multiset (Pt K d))), SameFrame (init size lo) m → insertAll g l m = some m' →
      (m'.store.cells i).getD 0 = (m.store.cells i).getD 0 + (l : Multiset (Pt K d)).filter fun p => ∀ a, (i a : K) * g.r ≤ g.toMap p a ∧ g.toMap p a < ((i a : K) + 1) * g.r := by
    intro l
    induction l with
    | nil => intro m m' _ h; cases h; simp
    | cons p l ih =>
      intro m m' hF h
      obtain ⟨m1, h1, h2⟩ := Option.bind_eq_some_iff.1 h
      rw [ih m1 m' (hF.trans (insert_frame g p m m1 h1)) h2, insert_cells g p m m1 h1 i, ← Multiset.cons_coe, Multiset.filter_cons, add_assoc]
      congr 2
      have hacc : index g.r (g.toMap p) = i → m.accepts (index g.r (g.toMap p)) = true := by
        intro e
        rw [e]
        unfold accepts
        rw [decide_eq_true_iff, hF.lo, hF.hi]
        intro a
        exact ⟨(hi a).1, (hi a).2.le⟩
      by_cases e : index g.r (g.toMap p) = i
      · rw [if_pos ⟨hacc e, e⟩, if_pos ((index_eq_iff hr _ _).1 e)]
      · rw [if_neg (by rintro ⟨_, h⟩; exact e h), if_neg fun h => e ((index_eq_iff hr _ _).2 h)]
  have h0 := key l (init size lo) m (.refl _) h
  rw [h0]
  simp [init, Arr.fresh]

/-- **C54** (totality): insertions of points none of which lies in the row behind the last one are defined. -/
theorem C54_mono_total (g : Geo K d) (hr : 0 < g.r) (size : Fin d → Nat) (lo : Idx d) (l : List (Pt K d))
    (hl : ∀ p ∈ l, InArea g.r size lo 0 (g.toMap p) ∨ ¬ InArea g.r size lo 1 (g.toMap p)) : ∃ m, insertAll g l (init size lo) = some m := by
  have key : ∀ (l : List (Pt K d)) (m : Mono d (Multiset (Pt K d))), SameFrame (init size lo) m →
      (∀ p ∈ l, InArea g.r size lo 0 (g.toMap p) ∨ ¬ InArea g.r size lo 1 (g.toMap p)) → ∃ m', insertAll g l m = some m' := by
    intro l
    induction l with
    | nil => intro m _ _; exact ⟨m, rfl⟩
    | cons p l ih =>
      intro m hF hl
      have : (m.insert g p).isSome = true := by
        rw [insert_isSome (r := g.r), inBox_iff hr size lo m hF]
        rcases hl p (List.mem_cons_self ..) with h | h
        · exact .inr h
        · left
          rw [← Bool.not_eq_true, accepts_iff hr size lo m hF]; exact h
      obtain ⟨m1, h1⟩ := Option.isSome_iff_exists.1 this
      obtain ⟨m2, h2⟩ := ih m1 (hF.trans (insert_frame g p m m1 h1)) fun q hq => hl q (List.mem_cons_of_mem _ hq)
      exact ⟨m2, by simp [insertAll, h1, h2]⟩
  exact key l _ (.refl _) hl

/-- **C54** (partition): after inserting points of the proper area, every inserted point is held by exactly one cell of the array, as often as it was inserted, and no other cell holds it; there is nothing else in the map. -/
theorem C54_mono_partition [DecidableEq (Pt K d)] (g : Geo K d) (hr : 0 < g.r) (size : Fin d → Nat) (lo : Idx d) (l : List (Pt K d)) (hl : ∀ p ∈ l, InArea g.r size lo 0 (g.toMap p)) :
    ∃ m : Mono d (Multiset (Pt K d)), insertAll g l (init size lo) = some m ∧
      (∀ p ∈ l, ∃ i : Idx d, (∀ a, lo a ≤ i a ∧ i a < lo a + size a) ∧ ((m.store.cells i).getD 0).count p = l.count p ∧
        ∀ j : Idx d, (∀ a, lo a ≤ j a ∧ j a < lo a + size a) → j ≠ i → p ∉ (m.store.cells j).getD 0) ∧
      ∀ j : Idx d, (∀ a, lo a ≤ j a ∧ j a < lo a + size a) → ∀ p ∈ (m.store.cells j).getD 0, p ∈ l := by
  obtain ⟨m, h⟩ := C54_mono_total g hr size lo l fun p hp => .inl (hl p hp)
  refine ⟨m, h, fun p hp => ?_, fun j hj p hp => ?_⟩
  · have hc := (index_eq_iff hr (g.toMap p) _).1 rfl
    have hin : ∀ a, lo a ≤ index g.r (g.toMap p) a ∧ index g.r (g.toMap p) a < lo a + size a := by
      intro a
      obtain ⟨h1, h2⟩ := hl p hp a
      obtain ⟨h3, h4⟩ := hc a
      constructor
      · have : ((lo a : Int) : K) < ((index g.r (g.toMap p) a + 1 : Int) : K) := by
          push_cast; exact lt_of_mul_lt_mul_right (h1.trans_lt h4) hr.le
        have := Int.cast_lt.1 this
        omega
      · have : ((index g.r (g.toMap p) a : Int) : K) < ((lo a + size a : Int) : K) := by
          push_cast; exact lt_of_mul_lt_mul_right (h3.trans_lt (by simpa using h2)) hr.le
        exact Int.cast_lt.1 this
    refine ⟨index g.r (g.toMap p), hin, ?_, fun j hj hne hmem => hne ?_⟩
    · rw [C54_mono_contents g hr size lo l m h _ hin, Multiset.count_filter_of_pos hc, Multiset.coe_count]
    · rw [C54_mono_contents g hr size lo l m h _ hj] at hmem
      exact ((index_eq_iff hr _ _).2 (Multiset.mem_filter.1 hmem).2).symm
  · rw [C54_mono_contents g hr size lo l m h _ hj] at hp
    exact Multiset.mem_coe.1 (Multiset.mem_filter.1 hp).1

/-- Non-vacuity: two points, one of them inserted twice. -/
example : ∃ m : Mono 2 (Multiset (Pt ℚ 2)), insertAll ({ r := 1, toMap := id, normal := fun _ => true } : Geo ℚ 2) [![1/2, 1/2], ![5/2, 1/4], ![1/2, 1/2]] (init ![3, 2] ![0, 0]) = some m ∧
    ∃ i : Idx 2, ((m.store.cells i).getD 0).count ![1/2, 1/2] = 2 := by
  obtain ⟨m, h, h1, -⟩ := C54_mono_partition ({ r := 1, toMap := id, normal := fun _ => true } : Geo ℚ 2) (by norm_num) ![3, 2] ![0, 0] [![1/2, 1/2], ![5/2, 1/4], ![1/2, 1/2]] (by
    intro p hp
    simp only [List.mem_cons, List.not_mem_nil, or_false] at hp
    rcases hp with rfl | rfl | rfl <;> intro a <;> fin_cases a <;> norm_num)
  obtain ⟨i, _, hi, _⟩ := h1 ![1/2, 1/2] (by simp)
  exact ⟨m, h, i, hi.trans (by decide +kernel)⟩

/-- Non-vacuity: a map of 3×2 cells into which three points are inserted, one of them outside of the map. -/
example : ∃ m, insertAll ({ r := 1, toMap := id, normal := fun _ => true } : Geo ℚ 2) [![1/2, 1/2], ![3/4, 1/4], ![7, 7]] (init ![3, 2] ![0, 0]) = some m ∧
    (m.store.cells ![0, 0]).getD 0 = {![1/2, 1/2], ![3/4, 1/4]} := by
  obtain ⟨m, h⟩ := C54_mono_total ({ r := 1, toMap := id, normal := fun _ => true } : Geo ℚ 2) (by norm_num) ![3, 2] ![0, 0] [![1/2, 1/2], ![3/4, 1/4], ![7, 7]] (by
    intro p hp
    simp only [List.mem_cons, List.not_mem_nil, or_false] at hp
    rcases hp with rfl | rfl | rfl
    · left; intro a; fin_cases a <;> norm_num
    · left; intro a; fin_cases a <;> norm_num
    · right; intro hc; have := hc 0; norm_num at this)
  refine ⟨m, h, ?_⟩
  rw [C54_mono_contents _ (by norm_num) _ _ _ m h ![0, 0] (by intro a; fin_cases a <;> norm_num)]
  have h1 : ∀ p : Pt ℚ 2, (∀ a, ((![0, 0] : Idx 2) a : ℚ) * 1 ≤ p a ∧ p a < (((![0, 0] : Idx 2) a : ℚ) + 1) * 1) ↔ (0 ≤ p 0 ∧ p 0 < 1) ∧ (0 ≤ p 1 ∧ p 1 < 1) := by
    intro p; simp [Fin.forall_fin_two]
  simp only [id, h1, Multiset.filter_coe]
  rw [List.filter_cons_of_pos (by norm_num), List.filter_cons_of_pos (by norm_num), List.filter_cons_of_neg (by norm_num)]
  rfl

/-! ### C41 -/

open St

/-- `merge` on every reachable non-empty dynamic map -/
theorem merge_spec {E : Type} {gb : Nat → Nat} {gb' : Nat} {exp : Multiset E → Bool} (st : St (octreeBackend d) (Multiset E)) (hR : MapReachable (.dynamic gb gb') exp st) (hne : st.bundleIndices ≠ []) :
    ∃ m, merge st = some m ∧ m.lo = st.minB ∧ (∀ a, m.hi a = st.maxB a + 1) ∧ (∀ i, i ∉ st.bundleIndices → m.store.cells i = none) ∧ (∀ i ∈ st.bundleIndices, m.store.InBox i) ∧
      ∀ i ∈ st.bundleIndices, m.store.cells i = some (∑ c ∈ Finset.range (2 ^ d), (st.content c (generateIndex i c)).getD 0) := by
  have hI : RInv (octreeLawful d) true st := hR.spec.1
  have hb := dyn_bounds hR.spec.1 hne
  have hdef : ∀ a, (mergeSize st a).isSome = true := fun a => by obtain ⟨n, h, _⟩ := mergeSize_eq st a (hb a); rw [h]; rfl
  have hsz : ∀ a, (((mergeSize st a).getD 0 : Nat) : Int) = st.maxB a - st.minB a + 1 := fun a => by
    obtain ⟨n, h, h'⟩ := mergeSize_eq st a (hb a); rw [h]; exact h'
  have hfst : (bundleList st).map Prod.fst = st.bundleIndices := by
    unfold bundleList bundleIndices
    rw [List.map_map]; rfl
  have hmem : ∀ e ∈ bundleList st, e.1 ∈ st.bundleIndices ∧ ∃ b, st.bundle e.1 = some b ∧ e.2 = fun c => (b.data c).map st.heap := by
    intro e he
    refine ⟨hfst ▸ List.mem_map.2 ⟨e, he, rfl⟩, ?_⟩
    obtain ⟨⟨bi, b⟩, hb, rfl⟩ := List.mem_map.1 he
    exact ⟨b, ((octreeLawful d).mem_traverse _ hI.inv.bstore bi b).1 hb, rfl⟩
  have hbin : ∀ bi b, st.bundle bi = some b → ∀ c, c < 2 ^ d → (b.data c).map st.heap = st.content c (generateIndex bi c) ∧ (st.content c (generateIndex bi c)).isSome = true := by
    intro bi b hb c hc
    obtain ⟨a, h1, h2⟩ := hI.inv.complete bi b hb c hc
    unfold St.content
    rw [h1, h2]
    exact ⟨rfl, rfl⟩
  have hbox : ∀ i ∈ st.bundleIndices, (init (D := Multiset E) (fun a => (mergeSize st a).getD 0) st.minB).store.InBox i := by
    intro bi hbi a
    have hal : bi ∈ st.abs.allocated := (mem_allocated_iff st bi).2 ((mem_bundleIndices (octreeLawful d) st hI.inv bi).1 hbi)
    rcases hI.ainv.bounds rfl with ⟨he, _⟩ | ⟨_, ht⟩
    · rw [he] at hal; exact absurd hal (Set.notMem_empty _)
    · obtain ⟨⟨_, h1⟩, _, h2⟩ := ht a
      have h1' : st.minB a ≤ bi a := h1 ⟨bi, hal, rfl⟩
      have h2' : bi a ≤ st.maxB a := h2 ⟨bi, hal, rfl⟩
      show st.minB a ≤ bi a ∧ bi a < st.minB a + (((mergeSize st a).getD 0 : Nat) : Int)
      rw [hsz]; omega
  obtain ⟨m, h1, h2, h3, h4⟩ := mergeList_spec (bundleList st) (init (fun a => (mergeSize st a).getD 0) st.minB)
    (by rw [hfst]; exact (octreeLawful d).nodup_traverse _ hI.inv.bstore) (fun e he => hbox _ (hmem e he).1) (fun e he => rfl)
    (fun e he c hc => by
      obtain ⟨_, b, hb, hf⟩ := hmem e he
      rw [hf]; simp only
      rw [(hbin e.1 b hb c hc).1]; exact (hbin e.1 b hb c hc).2)
  refine ⟨m, ?_, h2.lo, ?_, ?_, ?_, ?_⟩
  · unfold merge; rw [if_pos hdef]; exact h1
  · intro a
    rw [h2.hi]
    show st.minB a + (((mergeSize st a).getD 0 : Nat) : Int) = _
    rw [hsz]; omega
  · intro i hi
    rw [← hfst] at hi
    rw [h3 i hi]; rfl
  · intro i hi
    exact (h2.inBox i).2 (hbox i hi)
  · intro i hi
    rw [← hfst] at hi
    obtain ⟨e, he, rfl⟩ := List.mem_map.1 hi
    obtain ⟨_, b, hb, hf⟩ := hmem e he
    rw [h4 e he, sum_range_list]
    congr 1
    refine Finset.sum_congr rfl fun c hc => ?_
    rw [hf]
    simp only
    rw [(hbin e.1 b hb c (Finset.mem_range.1 hc)).1]

open scoped Classical in
/-- **C41** (stencil). Merging the map that results from any history of an NDT map: the merged map has a distribution exactly at the allocated bundles, and it contains each inserted point of
bundle `b` with multiplicity `∏ (2 - |b - i|)` (0 if a coordinate differs by more than one) at cell `i`. -/
theorem C41_stencil (gb : Nat → Nat) (gb' : Nat) (g : Geo K d) (hr : 0 < g.r) (exp : Multiset (Pt K d) → Bool) (ops : List (GridOp K d))
    (st : St (octreeBackend d) (Multiset (Pt K d))) (h : gridRun g true exp ops ((Kind.dynamic gb gb').init _) = some st) (hne : st.bundleIndices ≠ []) :
    ∃ m, merge st = some m ∧ m.lo = st.minB ∧ (∀ i, (m.store.cells i).isSome = true ↔ i ∈ st.bundleIndices) ∧
      ∀ i s, m.store.cells i = some s → ∀ p b, Spec.InBundle g.r b p →
        s.count p = Spec.stencil (fun a => b a - i a) * (Spec.accepted g (.dynamic gb gb') ops).count p := by
  have hR : MapReachable (.dynamic gb gb') exp st := grid_reachable g (.dynamic gb gb') exp ops _ st .init h
  obtain ⟨m, h1, h2, _, h3, _, h4⟩ := merge_spec st hR hne
  have hiff : ∀ i, (m.store.cells i).isSome = true ↔ i ∈ st.bundleIndices := by
    intro i
    by_cases hi : i ∈ st.bundleIndices
    · rw [h4 i hi]; simp [hi]
    · rw [h3 i hi]; simp [hi]
  refine ⟨m, h1, h2, hiff, ?_⟩
  intro i s hs p b hb
  have hi : i ∈ st.bundleIndices := (hiff i).1 (by rw [hs]; rfl)
  rw [h4 i hi] at hs
  cases hs
  rw [Multiset.count_sum', ← shared_bins i b, Finset.sum_mul]
  refine Finset.sum_congr rfl fun c hc => ?_
  rw [C10_contents_exact (.dynamic gb gb') g hr exp ops st h c (Finset.mem_range.1 hc), Multiset.count_filter]
  have : Spec.InCell g.r c (generateIndex i c) p ↔ generateIndex b c = generateIndex i c := by
    rw [← C01_point_in_selected_cell hr p c, (C01_bundle_contains_point hr p b).2 hb]
  by_cases hh : generateIndex b c = generateIndex i c
  · rw [if_pos (this.2 hh), if_pos hh, one_mul]
  · rw [if_neg fun h => hh (this.1 h), if_neg hh, zero_mul]

open scoped Classical in
/-- **C41** (mass). The total number of points in the merged map is between `2^Dim` and `4^Dim` times the number of inserted points; it is `4^Dim` times that number exactly if every neighbour of every bundle
that contains an inserted point is allocated. -/
theorem C41_mass (gb : Nat → Nat) (gb' : Nat) (g : Geo K d) (hr : 0 < g.r) (exp : Multiset (Pt K d) → Bool) (ops : List (GridOp K d))
    (st : St (octreeBackend d) (Multiset (Pt K d))) (h : gridRun g true exp ops ((Kind.dynamic gb gb').init _) = some st) (m : Mono d (Multiset (Pt K d))) (hm : merge st = some m)
    (hne : st.bundleIndices ≠ []) :
    let total := (((arrayBackend d).traverse m.store).map fun e => e.2.card).sum
    let n := (Spec.accepted g (.dynamic gb gb') ops).card
    2 ^ d * n ≤ total ∧ total ≤ 4 ^ d * n ∧
    (total = 4 ^ d * n ↔ ∀ p ∈ Spec.accepted g (.dynamic gb gb') ops, ∀ b, Spec.InBundle g.r b p → ∀ j, Spec.Neighbour b j → j ∈ st.bundleIndices) := by
  intro total n
  have hR : MapReachable (.dynamic gb gb') exp st := grid_reachable g (.dynamic gb gb') exp ops _ st .init h
  have hI : RInv (octreeLawful d) true st := hR.spec.1
  obtain ⟨m', h1, _, _, h3, h5, h4⟩ := merge_spec st hR hne
  rw [hm] at h1
  cases h1
  set acc := Spec.accepted g (.dynamic gb gb') ops with hacc
  let S := st.bundleIndices.toFinset
  have hmemS : ∀ i, i ∈ S ↔ i ∈ st.bundleIndices := fun i => List.mem_toFinset
  have hnd : (st.bundleIndices).Nodup := (octreeLawful d).nodup_traverse _ hI.inv.bstore
  have hiff : ∀ (i : Idx d) (c : Nat) (p : Pt K d), Spec.InCell g.r c (generateIndex i c) p ↔ generateIndex (toBundleIndex g.r p) c = generateIndex i c := fun i c p =>
    (C01_point_in_selected_cell hr p c _).symm
  have htot : total = (acc.map fun p => ∑ i ∈ S, Spec.stencil (fun a => toBundleIndex g.r p a - i a)).sum := by
    rw [← sum_map_swap]
    have hperm : ((arrayBackend d).traverse m.store).Perm (st.bundleIndices.map fun i => (i, (m.store.cells i).getD 0)) := by
      refine (List.perm_ext_iff_of_nodup ?_ ?_).2 ?_
      · exact List.Nodup.of_map Prod.fst ((arrayLawful d).nodup_traverse m.store trivial)
      · refine List.Nodup.of_map Prod.fst ?_
        rw [List.map_map]
        show (List.map (fun i => i) st.bundleIndices).Nodup
        rw [List.map_id']; exact hnd
      · rintro ⟨i, s⟩
        rw [(arrayLawful d).mem_traverse m.store trivial, List.mem_map]
        unfold Backend.look
        constructor
        · intro hh
          split at hh
          · have hh' : m.store.cells i = some s := hh
            have hi : i ∈ st.bundleIndices := by
              by_contra hn; rw [h3 i hn] at hh'; cases hh'
            exact ⟨i, hi, by rw [hh']; rfl⟩
          · cases hh
        · rintro ⟨j, hj, hje⟩
          cases hje
          rw [if_pos (decide_eq_true (h5 i hj))]
          show m.store.cells i = _
          rw [h4 i hj]; rfl
    have e1 : total = ((st.bundleIndices.map fun i => (i, (m.store.cells i).getD 0)).map fun e => e.2.card).sum := (hperm.map _).sum_eq
    rw [e1, List.map_map, ← List.sum_toFinset _ hnd]
    refine Finset.sum_congr rfl fun i hi => ?_
    simp only [Function.comp_apply]
    rw [h4 i ((hmemS i).1 hi), Option.getD_some, Multiset.card_sum]
    have e2 : ∀ c ∈ Finset.range (2 ^ d), ((st.content c (generateIndex i c)).getD 0).card = (acc.filter (Spec.InCell g.r c (generateIndex i c))).card := fun c hc => by
      rw [C10_contents_exact (.dynamic gb gb') g hr exp ops st h c (Finset.mem_range.1 hc)]
    rw [Finset.sum_congr rfl e2, sum_card_filter_range]
    congr 1
    refine Multiset.map_congr rfl fun p _ => ?_
    rw [← shared_bins]
    refine Finset.sum_congr rfl fun c _ => ?_
    by_cases hh : generateIndex (toBundleIndex g.r p) c = generateIndex i c
    · rw [if_pos ((hiff i c p).2 hh), if_pos hh]
    · rw [if_neg fun h => hh ((hiff i c p).1 h), if_neg hh]
  have hown : ∀ p ∈ acc, toBundleIndex g.r p ∈ S := by
    intro p hp
    rw [hmemS]
    have h4 := (gridRun_spec (octreeLawful d) g true exp ops _ st (Kind.init_rinv (.dynamic gb gb')) h).2.2.2
    rw [hacc, ← accOps_eq (Multiset (Pt K d)) g hr, Multiset.mem_coe] at hp
    have hal := h4 p hp
    rw [mem_allocated_iff] at hal
    exact (mem_bundleIndices _ st hI.inv _).2 hal
  have hterm : ∀ p ∈ acc, 2 ^ d ≤ (∑ i ∈ S, Spec.stencil (fun a => toBundleIndex g.r p a - i a)) ∧ (∑ i ∈ S, Spec.stencil (fun a => toBundleIndex g.r p a - i a)) ≤ 4 ^ d := by
    intro p hp
    refine ⟨?_, sum_stencil_le _ _⟩
    exact le_sum_stencil _ _ (hown p hp)
  obtain ⟨b1, b2, b3⟩ := sum_const_bound (fun p => ∑ i ∈ S, Spec.stencil (fun a => toBundleIndex g.r p a - i a)) (2 ^ d) (4 ^ d) acc hterm
  have hn' : n = acc.card := rfl
  clear_value total n
  rw [← htot, ← hn'] at b1 b2 b3
  refine ⟨b1, b2, b3.trans ?_⟩
  refine forall_congr' fun p => forall_congr' fun hp => ?_
  rw [sum_stencil_eq_iff]
  have hn : ∀ b j : Idx d, j ∈ nbr b ↔ Spec.Neighbour b j := by
    intro b j
    unfold nbr Spec.Neighbour
    rw [Fintype.mem_piFinset]
    refine forall_congr' fun a => ?_
    simp only [Finset.mem_insert, Finset.mem_singleton]
    rw [abs_le]; omega
  constructor
  · intro hs b hb j hj
    rw [← (C01_bundle_contains_point hr p b).2 hb] at hj
    exact (hmemS j).1 (hs ((hn _ _).2 hj))
  · intro hs j hj
    exact (hmemS j).2 (hs _ ((C01_bundle_contains_point hr p _).1 rfl) j ((hn _ _).1 hj))

/-! ### C55 -/

/-- the geometry of a merged map: the same origin, the bundle resolution as resolution (`C2/conversion/merge.hpp:26-28`) -/
def mergedGeo (g : Geo K d) : Geo K d := { g with r := bundleResolution g.r }

/-- **C55** (partial). If the origin is the identity, sampling the merged map at a point of an allocated bundle evaluates the merged distribution of that bundle at the point. -/
theorem C55_merged_sample_partial (gb : Nat → Nat) (gb' : Nat) (g : Geo K d) (hr : 0 < g.r) (exp : Multiset (Pt K d) → Bool) (ops : List (GridOp K d))
    (st : St (octreeBackend d) (Multiset (Pt K d))) (h : gridRun g true exp ops ((Kind.dynamic gb gb').init _) = some st) (m : Mono d (Multiset (Pt K d))) (hm : merge st = some m)
    (dens : Multiset (Pt K d) → Pt K d → K) (p : Pt K d) (hid : g.toMap p = p) (b : Idx d) (hb : Spec.InBundle g.r b (g.toMap p)) (hal : b ∈ st.bundleIndices) :
    ∃ s, m.store.cells b = some s ∧ m.sample (mergedGeo g) dens p = some (dens s (g.toMap p)) := by
  have hR : MapReachable (.dynamic gb gb') exp st := grid_reachable g (.dynamic gb gb') exp ops _ st .init h
  obtain ⟨m', h1, h2, h2', h3, h5, h4⟩ := merge_spec st hR (List.ne_nil_of_mem hal)
  rw [hm] at h1
  cases h1
  refine ⟨_, h4 b hal, ?_⟩
  have hrb : (0 : K) < bundleResolution g.r := by unfold bundleResolution; positivity
  have hidx : index (bundleResolution g.r) (g.toMap p) = b := by
    rw [index_eq_iff hrb]
    intro a
    have := hb a
    have e : bundleResolution g.r = g.r / 2 := by unfold bundleResolution; ring
    rw [e]; exact this
  have hbox := h5 b hal
  have hacc : m.accepts b = true := by
    unfold accepts
    rw [decide_eq_true_iff]
    intro a
    have hI : RInv (octreeLawful d) true st := hR.spec.1
    have hal' : b ∈ st.abs.allocated := (mem_allocated_iff st b).2 ((mem_bundleIndices (octreeLawful d) st hI.inv b).1 hal)
    rcases hI.ainv.bounds rfl with ⟨he, _⟩ | ⟨_, ht⟩
    · rw [he] at hal'; exact absurd hal' (Set.notMem_empty _)
    · obtain ⟨⟨_, h1⟩, _, h2x⟩ := ht a
      have h1' : st.minB a ≤ b a := h1 ⟨b, hal', rfl⟩
      have h2x' : b a ≤ st.maxB a := h2x ⟨b, hal', rfl⟩
      rw [h2, h2']; omega
  unfold Mono.sample toIndex sampleIdx
  rw [show (mergedGeo g).r = bundleResolution g.r from rfl, show (mergedGeo g).toMap = g.toMap from rfl, hidx, if_pos hacc]
  simp only
  rw [if_pos (decide_eq_true hbox), h4 b hal, hid]

/-- A translated map: the map coordinates of a world point `p` are `p - 10`. -/
def shiftedGeo : Geo ℚ 1 := { r := 2, toMap := fun p a => p a - 10, normal := fun _ => true }

open scoped Classical in
/-- **C55 refuted.** On a map with a translated origin, sampling at an inserted world point `p`: the source map evaluates its distributions at the map coordinates of `p` (here with value 1), the merged map evaluates the merged
distribution, which is in map coordinates as well, at the world coordinates of `p` (here with value 0). -/
theorem C55_frames_refuted (gb : Nat → Nat) (gb' : Nat) : ∃ (st : St (octreeBackend 1) (Multiset (Pt ℚ 1))) (m : Mono 1 (Multiset (Pt ℚ 1))) (p : Pt ℚ 1) (dens : Multiset (Pt ℚ 1) → Pt ℚ 1 → ℚ),
    gridRun shiftedGeo true (fun _ => true) [.insert id [p]] ((Kind.dynamic gb gb').init _) = some st ∧ merge st = some m ∧
    sampleNNAt shiftedGeo true dens p st = some 1 ∧ m.sample (mergedGeo shiftedGeo) dens p = some 0 := by
  have htb : toBundleIndex shiftedGeo.r (shiftedGeo.toMap ![21/2]) = ![0] := by
    funext a; fin_cases a
    norm_num [toBundleIndex, bundleResolutionInv, bundleResolution, shiftedGeo]
  have hr : (0 : ℚ) < shiftedGeo.r := by norm_num [shiftedGeo]
  obtain ⟨st, h⟩ := dynamic_run_total shiftedGeo (fun _ => true) gb gb' 10 [.insert id [![21/2]]] _ (Kind.init_rinv (.dynamic gb gb')) (.refl ..) (by
    intro op hop
    rw [List.mem_singleton.1 hop]
    intro p hp a
    have : p = shiftedGeo.toMap ![21/2] := by simpa [accList, shiftedGeo] using hp
    rw [this, htb]
    fin_cases a; norm_num) 10 (le_refl _) (by intro bi hbi; rw [Kind.init_allocated] at hbi; exact absurd hbi (Set.notMem_empty _)) (by decide)
  have hacc : Spec.accepted shiftedGeo (.dynamic gb gb') [.insert id [![21/2]]] = {shiftedGeo.toMap ![21/2]} := by
    simp [Spec.accepted, Spec.acceptedPoints, Spec.Region, shiftedGeo]
  have hR : MapReachable (.dynamic gb gb') (fun _ => true) st := grid_reachable shiftedGeo (.dynamic gb gb') _ _ _ st .init h
  have hI : RInv (octreeLawful 1) true st := hR.spec.1
  have hal : (![0] : Idx 1) ∈ st.bundleIndices := by
    have h4 := (gridRun_spec (octreeLawful 1) shiftedGeo true _ _ _ st (Kind.init_rinv (.dynamic gb gb')) h).2.2.2
    have := h4 (shiftedGeo.toMap ![21/2]) (by simp [accOps, accList, shiftedGeo, Abs.valid])
    rw [mem_allocated_iff, htb] at this
    exact (mem_bundleIndices _ st hI.inv _).2 this
  obtain ⟨m, h1, h2, h2', h3, h5, h4⟩ := merge_spec st hR (List.ne_nil_of_mem hal)
  have hb : Spec.InBundle shiftedGeo.r ![0] (shiftedGeo.toMap ![21/2]) := (C01_bundle_contains_point hr _ _).1 htb
  refine ⟨st, m, ![21/2], fun s q => if q ∈ s then 1 else 0, h, h1, ?_, ?_⟩
  · obtain ⟨x, hx⟩ := (C24_dynamic_total gb gb' shiftedGeo (fun _ => true) _ st h (fun s q => if q ∈ s then 1 else 0) ![21/2] (by rw [htb]; decide)).1
    rw [hx, (C24_sample_is_mean (.dynamic gb gb') shiftedGeo hr _ _ st h _ ![21/2] ![0] hb x hx).1 ⟨trivial, hal⟩]
    have : ∀ c, shiftedGeo.toMap ![21/2] ∈ cellMates shiftedGeo.r (Spec.accepted shiftedGeo (.dynamic gb gb') [.insert id [![21/2]]]) c (shiftedGeo.toMap ![21/2]) := by
      intro c
      unfold cellMates
      rw [hacc, Multiset.mem_filter]
      have := (C01_point_in_selected_cell hr (shiftedGeo.toMap ![21/2]) c _).1 rfl
      exact ⟨Multiset.mem_singleton_self _, _, this, this⟩
    simp [this]
  · have hs := h4 _ hal
    have hz : m.store.cells ![0] = some (∑ c ∈ Finset.range (2 ^ 1), (st.content c (generateIndex ![0] c)).getD 0) := hs
    unfold Mono.sample toIndex sampleIdx
    have hidx : index (mergedGeo shiftedGeo).r ((mergedGeo shiftedGeo).toMap ![21/2]) = ![0] := by
      funext a; fin_cases a
      norm_num [index, mergedGeo, bundleResolution, shiftedGeo]
    have hbd : m.accepts ![0] = true := by
      have hbx := h5 _ hal
      unfold accepts
      rw [decide_eq_true_iff]
      have hal' : (![0] : Idx 1) ∈ st.abs.allocated := (mem_allocated_iff st _).2 ((mem_bundleIndices (octreeLawful 1) st hI.inv _).1 hal)
      intro a
      rcases hI.ainv.bounds rfl with ⟨he, _⟩ | ⟨_, ht⟩
      · rw [he] at hal'; exact absurd hal' (Set.notMem_empty _)
      · obtain ⟨⟨_, h1⟩, _, h2x⟩ := ht a
        have h1' : st.minB a ≤ (![0] : Idx 1) a := h1 ⟨_, hal', rfl⟩
        have h2x' : (![0] : Idx 1) a ≤ st.maxB a := h2x ⟨_, hal', rfl⟩
        rw [h2, h2']; omega
    rw [hidx, if_pos hbd]
    simp only
    rw [if_pos (decide_eq_true (h5 _ hal)), hz]
    simp only
    rw [if_neg]
    intro hmem
    rw [Multiset.mem_sum] at hmem
    obtain ⟨c, hc, hmem⟩ := hmem
    rw [C10_contents_exact (.dynamic gb gb') shiftedGeo hr _ _ st h c (by simpa using hc), hacc, Multiset.mem_filter, Multiset.mem_singleton] at hmem
    have := congrFun hmem.1 0
    norm_num [shiftedGeo] at this

/-- Non-vacuity for C41 and C55: the sample map of C10, of resolution 1 with five points. -/
example : ∃ st, gridRun sampleGeo true (fun _ => true) sampleOps ((Kind.dynamic 0 0).init (Multiset (Pt ℚ 2))) = some st ∧ st.bundleIndices ≠ [] ∧ ∃ m, merge st = some m := by
  obtain ⟨st, h⟩ := sample_runs 0 0 (fun _ => true)
  have hR : Reachable (.dynamic 0 0) sampleGeo (fun _ => true) st := ⟨sampleOps, h⟩
  have h4 := (gridRun_spec (octreeLawful 2) sampleGeo true _ sampleOps _ st (Kind.init_rinv (.dynamic 0 0)) h).2.2.2
  have := h4 ![1/5, 1/5] (by simp [accOps, accList, sampleOps, sampleGeo, Abs.valid])
  rw [mem_allocated_iff] at this
  have hne := List.ne_nil_of_mem ((mem_bundleIndices _ st hR.rinv.inv _).2 this)
  obtain ⟨m, hm, _⟩ := C41_stencil 0 0 sampleGeo (by norm_num [sampleGeo]) _ _ st h hne
  exact ⟨st, h, hne, m, hm⟩

end Mono
end Ndt
