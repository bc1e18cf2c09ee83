import Verif.Model.Container
import Mathlib.Tactic.Linarith
import Mathlib.Data.List.Induction
import Mathlib.Data.Fin.VecNotation
import Mathlib.Tactic.FinCases
import Mathlib.Algebra.Order.BigOperators.Group.Finset

/-!
C50: box queries on the container of indices. C66: queries along a line.
-/

namespace Ndt

open Container

/-- lexicographic order of indices -/
def Spec.lexLt {d : Nat} (x y : Idx d) : Prop := ∃ i, (∀ j < i, x j = y j) ∧ x i < y i

/-- `x` is in the box spanned by `a` and `b`, whatever the order of the corners -/
def Spec.InSpan {d : Nat} (a b x : Idx d) : Prop := ∀ i, min (a i) (b i) ≤ x i ∧ x i ≤ max (a i) (b i)

namespace Container

/-- keys in strictly increasing order -/
def Sorted {V : Type} (m : SMap V) : Prop := m.Pairwise fun e f => e.1 < f.1

section smap
variable {V : Type}

theorem mem_insert (k : Int) (v : V) : ∀ (m : SMap V) (e : Int × V), e ∈ SMap.insert k v m → e = (k, v) ∨ e ∈ m
  | [], e, h => by
    left
    exact List.mem_singleton.1 h
  | (k', v') :: m, e, h => by
    unfold SMap.insert at h
    split_ifs at h
    · rcases List.mem_cons.1 h with h | h
      · exact Or.inl h
      · exact Or.inr h
    · exact Or.inr h
    · rcases List.mem_cons.1 h with h | h
      · exact Or.inr (h ▸ List.mem_cons_self ..)
      · rcases mem_insert k v m e h with h | h
        · exact Or.inl h
        · exact Or.inr (List.mem_cons_of_mem _ h)

theorem sorted_insert (k : Int) (v : V) : ∀ m : SMap V, Sorted m → Sorted (SMap.insert k v m)
  | [], _ => List.pairwise_singleton _ _
  | (k', v') :: m, h => by
    obtain ⟨h1, h2⟩ := List.pairwise_cons.1 h
    unfold SMap.insert
    split_ifs with c1 c2
    · refine List.pairwise_cons.2 ⟨fun e he => ?_, h⟩
      rcases List.mem_cons.1 he with rfl | he
      · exact c1
      · exact c1.trans (h1 e he)
    · exact h
    · refine List.pairwise_cons.2 ⟨fun e he => ?_, sorted_insert k v m h2⟩
      rcases mem_insert k v m e he with rfl | he
      · show k' < k
        omega
      · exact h1 e he

theorem modify_map (k : Int) (f : V → V) : ∀ m : SMap V, (SMap.modify k f m).map Prod.fst = m.map Prod.fst
  | [] => rfl
  | (k', v') :: m => by
    unfold SMap.modify
    split_ifs
    · rfl
    · rw [List.map_cons, List.map_cons, modify_map k f m]

theorem sorted_iff (m : SMap V) : Sorted m ↔ (m.map Prod.fst).Pairwise (· < ·) := by
  unfold Sorted
  rw [List.pairwise_map]

theorem sorted_modify (k : Int) (f : V → V) (m : SMap V) (h : Sorted m) : Sorted (SMap.modify k f m) := by
  rw [sorted_iff, modify_map, ← sorted_iff]
  exact h

theorem find_insert (k : Int) (v : V) (k2 : Int) : ∀ m : SMap V, Sorted m →
    SMap.find k2 (SMap.insert k v m) = if k2 = k then some ((SMap.find k m).getD v) else SMap.find k2 m
  | [], _ => by
    unfold SMap.insert SMap.find
    split_ifs <;> rfl
  | (k', v') :: m, h => by
    obtain ⟨h1, h2⟩ := List.pairwise_cons.1 h
    have hnone : k < k' → SMap.find k m = none := by
      intro hk
      have : ∀ m : SMap V, (∀ e ∈ m, k < e.1) → SMap.find k m = none := by
        intro m
        induction m with
        | nil => intro _; rfl
        | cons e m ih =>
          intro hm
          obtain ⟨ke, ve⟩ := e
          unfold SMap.find
          have := hm (ke, ve) (List.mem_cons_self ..)
          rw [if_neg (by simp only at this; omega)]
          exact ih fun e he => hm e (List.mem_cons_of_mem _ he)
      exact this m fun e he => hk.trans (h1 e he)
    unfold SMap.insert
    split_ifs with c1 c2 c3 c4
    · subst c2
      simp only [SMap.find, if_pos]
      rw [if_neg (by omega), hnone c1]
      rfl
    · simp only [SMap.find]
      rw [if_neg c2]
    · subst c3 c4
      simp [SMap.find]
    · rfl
    · rename_i c5
      subst c5
      simp only [SMap.find]
      rw [if_neg c3, if_neg c3, find_insert k2 v k2 m h2, if_pos rfl]
    · rename_i c5
      simp only [SMap.find]
      split_ifs
      · rfl
      · rw [find_insert k v k2 m h2, if_neg c5]

theorem find_modify (k : Int) (f : V → V) (k2 : Int) : ∀ m : SMap V,
    SMap.find k2 (SMap.modify k f m) = if k2 = k then (SMap.find k m).map f else SMap.find k2 m
  | [] => by simp [SMap.modify, SMap.find]
  | (k', v') :: m => by
    unfold SMap.modify
    by_cases c : k = k'
    · subst c
      rw [if_pos rfl]
      simp only [SMap.find]
      split_ifs <;> rfl
    · rw [if_neg c]
      simp only [SMap.find]
      rw [find_modify k f k2 m]
      split_ifs with c1 c2
      · omega
      · rfl
      · rfl
      · rfl

theorem find_eq_some {m : SMap V} (h : Sorted m) {k : Int} {v : V} : SMap.find k m = some v ↔ (k, v) ∈ m := by
  induction m with
  | nil => simp [SMap.find]
  | cons e m ih =>
    obtain ⟨k', v'⟩ := e
    obtain ⟨h1, h2⟩ := List.pairwise_cons.1 h
    simp only [SMap.find, List.mem_cons, Prod.mk.injEq]
    by_cases c : k = k'
    · subst c
      simp only [if_pos, Option.some.injEq, true_and]
      constructor
      · intro h; exact Or.inl h.symm
      · rintro (h | h)
        · exact h.symm
        · exact absurd (h1 _ h) (lt_irrefl _)
    · rw [if_neg c, ih h2]
      simp [c]

theorem range_eq (a b : Int) (m : SMap V) (h : Sorted m) : SMap.range a b m = m.filter fun e => decide (a ≤ e.1 ∧ e.1 ≤ b) := by
  unfold SMap.range
  have take : ∀ m : SMap V, Sorted m → (m.takeWhile fun e => decide (e.1 ≤ b)) = m.filter fun e => decide (e.1 ≤ b) := by
    intro m
    induction m with
    | nil => intro _; rfl
    | cons e m ih =>
      intro h
      obtain ⟨h1, h2⟩ := List.pairwise_cons.1 h
      by_cases c : e.1 ≤ b
      · rw [List.takeWhile_cons_of_pos (by simpa using c), List.filter_cons_of_pos (by simpa using c), ih h2]
      · rw [List.takeWhile_cons_of_neg (by simpa using c), List.filter_cons_of_neg (by simpa using c)]
        symm
        rw [List.filter_eq_nil_iff]
        intro e' he'
        have := h1 e' he'
        simp only [decide_eq_true_eq]
        omega
  have drop : ∀ m : SMap V, Sorted m → (m.dropWhile fun e => decide (e.1 < a)) = m.filter fun e => decide (a ≤ e.1) := by
    intro m
    induction m with
    | nil => intro _; rfl
    | cons e m ih =>
      intro h
      obtain ⟨h1, h2⟩ := List.pairwise_cons.1 h
      by_cases c : e.1 < a
      · rw [List.dropWhile_cons_of_pos (by simpa using c), List.filter_cons_of_neg (by simpa using c), ih h2]
      · rw [List.dropWhile_cons_of_neg (by simpa using c), List.filter_cons_of_pos (by simpa using c)]
        congr 1
        symm
        rw [List.filter_eq_self]
        intro e' he'
        have := h1 e' he'
        simp only [decide_eq_true_eq]
        omega
  rw [drop m h, take _ (h.filter _), List.filter_filter]
  refine List.filter_congr fun e _ => ?_
  by_cases h1 : a ≤ e.1 <;> by_cases h2 : e.1 ≤ b <;> simp [h1, h2]

end smap

/-- all levels are in increasing order -/
def Ordered : {d : Nat} → NMap d → Prop
  | 0, m => Sorted (V := Bool) m
  | d + 1, m => Sorted (V := NMap d) m ∧ ∀ e ∈ (show SMap (NMap d) from m), Ordered e.2

theorem ordered_empty : ∀ d, Ordered (NMap.empty d)
  | 0 => List.Pairwise.nil
  | _ + 1 => ⟨List.Pairwise.nil, fun _ h => absurd h (List.not_mem_nil)⟩

theorem mem_modify {V : Type} (k : Int) (f : V → V) : ∀ (m : SMap V) (e : Int × V), e ∈ SMap.modify k f m → e ∈ m ∨ ∃ v, (k, v) ∈ m ∧ e = (k, f v)
  | [], e, h => absurd h (List.not_mem_nil)
  | (k', v') :: m, e, h => by
    unfold SMap.modify at h
    split_ifs at h with c
    · subst c
      rcases List.mem_cons.1 h with h | h
      · exact Or.inr ⟨v', List.mem_cons_self .., h⟩
      · exact Or.inl (List.mem_cons_of_mem _ h)
    · rcases List.mem_cons.1 h with h | h
      · exact Or.inl (h ▸ List.mem_cons_self ..)
      · rcases mem_modify k f m e h with h | ⟨v, h, h'⟩
        · exact Or.inl (List.mem_cons_of_mem _ h)
        · exact Or.inr ⟨v, List.mem_cons_of_mem _ h, h'⟩

theorem ordered_insert : ∀ {d : Nat} (i : Idx (d + 1)) (m : NMap d), Ordered m → Ordered (m.insert i)
  | 0, i, m, h => sorted_insert (V := Bool) _ _ _ h
  | d + 1, i, m, h => by
    refine ⟨sorted_modify (V := NMap d) _ _ _ (sorted_insert (V := NMap d) _ _ _ h.1), fun e he => ?_⟩
    have hin : ∀ e ∈ SMap.insert (V := NMap d) (i 0) (NMap.empty d) m, Ordered e.2 := by
      intro e he
      rcases mem_insert _ _ _ _ he with rfl | he
      · exact ordered_empty d
      · exact h.2 e he
    rcases mem_modify _ _ _ _ he with he' | ⟨v, he', rfl⟩
    · exact hin e he'
    · exact ordered_insert (tail i) v (hin (i 0, v) he')

theorem find_empty : ∀ {d : Nat} (j : Idx (d + 1)), (NMap.empty d).find j = false
  | 0, _ => rfl
  | _ + 1, _ => rfl

theorem idx_eq_iff {d : Nat} (i j : Idx (d + 1)) : i = j ↔ i 0 = j 0 ∧ tail i = tail j := by
  constructor
  · rintro rfl
    exact ⟨rfl, rfl⟩
  · rintro ⟨h0, h⟩
    funext k
    refine Fin.cases h0 (fun k => congrFun h k) k

theorem find_insert_iff : ∀ {d : Nat} (i j : Idx (d + 1)) (m : NMap d), Ordered m → ((m.insert i).find j = true ↔ j = i ∨ m.find j = true)
  | 0, i, j, m, h => by
    have e : (NMap.insert i m).find j = (SMap.find (V := Bool) (j 0) (SMap.insert (i 0) true m)).isSome := rfl
    have e' : m.find j = (SMap.find (V := Bool) (j 0) m).isSome := rfl
    rw [e, e', find_insert _ _ _ _ h]
    by_cases c : j 0 = i 0
    · rw [if_pos c]
      refine ⟨fun _ => Or.inl ?_, fun _ => rfl⟩
      rw [idx_eq_iff]
      exact ⟨c, funext fun k => k.elim0⟩
    · rw [if_neg c]
      refine ⟨Or.inr, ?_⟩
      rintro (rfl | h)
      · exact absurd rfl c
      · exact h
  | d + 1, i, j, m, h => by
    have e : (NMap.insert i m).find j = (match SMap.find (V := NMap d) (j 0) (SMap.modify (i 0) (NMap.insert (tail i)) (SMap.insert (V := NMap d) (i 0) (NMap.empty d) m)) with
      | none => false
      | some m' => NMap.find (tail j) m') := rfl
    have e' : m.find j = (match SMap.find (V := NMap d) (j 0) m with
      | none => false
      | some m' => NMap.find (tail j) m') := rfl
    rw [e, e', find_modify]
    by_cases c : j 0 = i 0
    · rw [if_pos c, find_insert _ _ _ _ h.1, if_pos rfl, Option.map_some]
      simp only
      have hord : Ordered ((SMap.find (V := NMap d) (i 0) m).getD (NMap.empty d)) := by
        cases hf : SMap.find (V := NMap d) (i 0) m with
        | none => exact ordered_empty d
        | some v => exact h.2 _ ((find_eq_some h.1).1 hf)
      rw [find_insert_iff (tail i) (tail j) _ hord, c, idx_eq_iff j i, and_iff_right c]
      cases hf : SMap.find (V := NMap d) (i 0) m with
      | none => simp [find_empty]
      | some v => simp
    · rw [if_neg c, find_insert _ _ _ _ h.1, if_neg c]
      refine ⟨Or.inr, ?_⟩
      rintro (rfl | h)
      · exact absurd rfl c
      · exact h

theorem ordered_foldl {d : Nat} : ∀ (l : List (Idx (d + 1))) (m : NMap d), Ordered m → Ordered (l.foldl (fun m i => m.insert i) m)
  | [], _, h => h
  | i :: l, m, h => ordered_foldl l _ (ordered_insert i m h)

theorem find_foldl {d : Nat} (j : Idx (d + 1)) : ∀ (l : List (Idx (d + 1))) (m : NMap d), Ordered m → ((l.foldl (fun m i => m.insert i) m).find j = true ↔ j ∈ l ∨ m.find j = true)
  | [], m, h => by simp
  | i :: l, m, h => by
    rw [List.foldl_cons, find_foldl j l _ (ordered_insert i m h), find_insert_iff i j m h, List.mem_cons]
    tauto

theorem foldl_flat {α β : Type} (f : α → List β) : ∀ (l : List α) (r : List β), l.foldl (fun r a => r ++ f a) r = r ++ l.flatMap f
  | [], r => by simp
  | a :: l, r => by rw [List.foldl_cons, foldl_flat f l, List.flatMap_cons, List.append_assoc]

theorem swap_eq (x y : Int) : (if y < x then y else x) = min x y ∧ (if y < x then x else y) = max x y := by
  constructor <;> split_ifs <;> omega

theorem findBetween_succ {d : Nat} (first last : Idx (d + 2)) (m : NMap (d + 1)) (h : Ordered m) :
    m.findBetween first last = ((show SMap (NMap d) from m).filter fun e => decide (min (first 0) (last 0) ≤ e.1 ∧ e.1 ≤ max (first 0) (last 0))).flatMap
      fun e => (NMap.findBetween (tail first) (tail last) e.2).map (cons e.1) := by
  rw [← range_eq _ _ _ h.1]
  have := foldl_flat (fun e : Int × NMap d => (NMap.findBetween (tail first) (tail last) e.2).map (cons e.1))
    (SMap.range (V := NMap d) (if last 0 < first 0 then last 0 else first 0) (if last 0 < first 0 then first 0 else last 0) m) []
  rw [List.nil_append, (swap_eq _ _).1, (swap_eq _ _).2] at this
  rw [← this]
  show List.foldl _ _ _ = _
  simp only [(swap_eq _ _).1, (swap_eq _ _).2]

theorem findBetween_zero (first last : Idx 1) (m : NMap 0) (h : Ordered m) :
    m.findBetween first last = ((show SMap Bool from m).filter fun e => decide (min (first 0) (last 0) ≤ e.1 ∧ e.1 ≤ max (first 0) (last 0))).map fun e => cons e.1 Fin.elim0 := by
  rw [← range_eq _ _ _ h]
  show List.map _ (SMap.range _ _ _) = _
  rw [(swap_eq _ _).1, (swap_eq _ _).2]

theorem cons_head {d : Nat} (k : Int) (x : Idx d) : cons k x 0 = k := rfl
theorem cons_tail {d : Nat} (k : Int) (x : Idx d) : tail (cons k x) = x := rfl

theorem inSpan_iff {d : Nat} (a b x : Idx (d + 1)) : Spec.InSpan a b x ↔ (min (a 0) (b 0) ≤ x 0 ∧ x 0 ≤ max (a 0) (b 0)) ∧ Spec.InSpan (tail a) (tail b) (tail x) := by
  constructor
  · intro h
    exact ⟨h 0, fun i => h i.succ⟩
  · rintro ⟨h0, h⟩ i
    exact Fin.cases h0 (fun i => h i) i

theorem mem_findBetween : ∀ {d : Nat} (first last : Idx (d + 1)) (m : NMap d), Ordered m → ∀ x, x ∈ m.findBetween first last ↔ m.find x = true ∧ Spec.InSpan first last x
  | 0, first, last, m, h, x => by
    rw [findBetween_zero _ _ _ h, inSpan_iff, List.mem_map]
    have e' : m.find x = (SMap.find (V := Bool) (x 0) m).isSome := rfl
    rw [e', Option.isSome_iff_exists]
    constructor
    · rintro ⟨⟨k, v⟩, he, rfl⟩
      rw [List.mem_filter, decide_eq_true_eq] at he
      exact ⟨⟨v, (find_eq_some h).2 he.1⟩, he.2, fun i => i.elim0⟩
    · rintro ⟨⟨v, hv⟩, h2, _⟩
      refine ⟨(x 0, v), ?_, ?_⟩
      · rw [List.mem_filter, decide_eq_true_eq]
        exact ⟨(find_eq_some h).1 hv, h2⟩
      · rw [idx_eq_iff]
        exact ⟨rfl, funext fun i => i.elim0⟩
  | d + 1, first, last, m, h, x => by
    rw [findBetween_succ _ _ _ h, inSpan_iff, List.mem_flatMap]
    have e' : m.find x = (match SMap.find (V := NMap d) (x 0) m with
      | none => false
      | some m' => NMap.find (tail x) m') := rfl
    rw [e']
    constructor
    · rintro ⟨⟨k, v⟩, he, hx⟩
      rw [List.mem_filter, decide_eq_true_eq] at he
      obtain ⟨y, hy, rfl⟩ := List.mem_map.1 hx
      have hv := h.2 _ he.1
      obtain ⟨h1, h2⟩ := (mem_findBetween (tail first) (tail last) v hv y).1 hy
      have hf := (find_eq_some h.1).2 he.1
      rw [cons_head, hf]
      exact ⟨h1, he.2, h2⟩
    · rintro ⟨h1, h2, h3⟩
      cases hf : SMap.find (V := NMap d) (x 0) m with
      | none =>
        rw [hf] at h1
        exact absurd h1 (by simp)
      | some v =>
        rw [hf] at h1
        have hm := (find_eq_some h.1).1 hf
        refine ⟨(x 0, v), ?_, ?_⟩
        · rw [List.mem_filter, decide_eq_true_eq]
          exact ⟨hm, h2⟩
        · rw [List.mem_map]
          refine ⟨tail x, (mem_findBetween (tail first) (tail last) v (h.2 _ hm) _).2 ⟨h1, h3⟩, ?_⟩
          rw [idx_eq_iff]
          exact ⟨rfl, rfl⟩

theorem lexLt_cons_of_lt {d : Nat} {k k' : Int} (h : k < k') (x y : Idx d) : Spec.lexLt (cons k x) (cons k' y) :=
  ⟨0, fun j hj => absurd hj (Fin.not_lt_zero j), h⟩

theorem lexLt_cons {d : Nat} (k : Int) {x y : Idx d} (h : Spec.lexLt x y) : Spec.lexLt (cons k x) (cons k y) := by
  obtain ⟨i, h1, h2⟩ := h
  refine ⟨i.succ, fun j hj => ?_, h2⟩
  induction j using Fin.cases with
  | zero => rfl
  | succ j => exact h1 j (Fin.succ_lt_succ_iff.1 hj)

theorem sorted_findBetween : ∀ {d : Nat} (first last : Idx (d + 1)) (m : NMap d), Ordered m → (m.findBetween first last).Pairwise Spec.lexLt
  | 0, first, last, m, h => by
    rw [findBetween_zero _ _ _ h, List.pairwise_map]
    exact (h.filter _).imp fun hlt => lexLt_cons_of_lt hlt _ _
  | d + 1, first, last, m, h => by
    rw [findBetween_succ _ _ _ h, List.pairwise_flatMap]
    constructor
    · rintro ⟨k, v⟩ he
      rw [List.pairwise_map]
      exact (sorted_findBetween (tail first) (tail last) v (h.2 _ (List.mem_of_mem_filter he))).imp fun hlt => lexLt_cons k hlt
    · refine (h.1.filter _).imp fun {e f} hlt x hx y hy => ?_
      obtain ⟨x', _, rfl⟩ := List.mem_map.1 hx
      obtain ⟨y', _, rfl⟩ := List.mem_map.1 hy
      exact lexLt_cons_of_lt hlt _ _

end Container

theorem specLex_irrefl {d : Nat} (x : Idx d) : ¬ Spec.lexLt x x := by
  rintro ⟨i, _, h⟩
  exact lt_irrefl _ h

/-- **C50** After any inserts, in any dimension, the lookup is membership, and the box query returns exactly the inserted indices in the box spanned by the two corners, each once, in lexicographic order, whatever the orientation of the corners. -/
theorem C50_box_query {d : Nat} (l : List (Idx (d + 1))) (first last : Idx (d + 1)) :
    (∀ x, (build l).find x = true ↔ x ∈ l) ∧ (∀ x, x ∈ (build l).findBetween first last ↔ x ∈ l ∧ Spec.InSpan first last x) ∧
    ((build l).findBetween first last).Nodup ∧ ((build l).findBetween first last).Pairwise Spec.lexLt := by
  have ho : Ordered (build l) := ordered_foldl l _ (ordered_empty d)
  have hf : ∀ x, (build l).find x = true ↔ x ∈ l := by
    intro x
    unfold build
    rw [find_foldl x l _ (ordered_empty d), find_empty]
    simp
  have hs := sorted_findBetween first last (build l) ho
  refine ⟨hf, fun x => ?_, ?_, hs⟩
  · rw [mem_findBetween first last _ ho, hf]
  · exact hs.imp fun {x y} h (e : x = y) => specLex_irrefl y (e ▸ h)

/-- a box with exchanged corners, an index inserted twice, and one outside of the box -/
example : (build [![3, 5], ![1, 2], ![3, 5], ![9, 9], ![3, 1]]).findBetween ![4, 0] ![0, 5] = [![1, 2], ![3, 1], ![3, 5]] := by
  decide

/-! ### C66 -/

theorem span_terms {d : Nat} {first last x : Idx d} (h : Spec.InSpan first last x) (i : Fin d) : diff first x i * diff last first i ≤ 0 := by
  have := h i
  unfold diff
  rw [← Int.cast_mul]
  have : (first i - x i) * (last i - first i) ≤ 0 := by
    rcases le_total (first i) (last i) with c | c
    · rw [min_eq_left c, max_eq_right c] at this
      nlinarith [this.1, this.2]
    · rw [min_eq_right c, max_eq_left c] at this
      nlinarith [this.1, this.2]
  exact_mod_cast this

theorem span_zero {d : Nat} {first last x : Idx d} (h : Spec.InSpan first last x) : 0 ≤ dot (diff first x) (diff last first) ↔ x = first := by
  constructor
  · intro h0
    have hs : dot (diff first x) (diff last first) = 0 := le_antisymm (Finset.sum_nonpos fun i _ => span_terms h i) h0
    have hz := (Finset.sum_eq_zero_iff_of_nonpos fun i _ => span_terms h i).1 hs
    funext i
    have hi := hz i (Finset.mem_univ i)
    unfold diff at hi
    rw [← Int.cast_mul] at hi
    have hi : (first i - x i) * (last i - first i) = 0 := by exact_mod_cast hi
    have := h i
    rcases mul_eq_zero.1 hi with c | c
    · omega
    · have : last i = first i := by omega
      have := h i
      rw [‹last i = first i›, min_self, max_self] at this
      omega
  · rintro rfl
    unfold dot diff
    simp

/-- the squared distance of an index from the line through `first` and `last`, as the minimum over the points of the segment -/
def Spec.NearSegment {d : Nat} (first last x : Idx d) : Prop :=
  ∃ t : ℝ, 0 ≤ t ∧ t ≤ 1 ∧ ∑ i, ((x i : ℝ) - (first i + t * (last i - first i))) ^ 2 < 1

/-- **C66** (part) What the query along a line returns: the first index if it was inserted, and nothing else. -/
theorem C66_line_query_partial {d : Nat} (l : List (Idx (d + 1))) (first last : Idx (d + 1)) :
    getBetween first last (build l) = if first ∈ l then [(first, 0)] else [] := by
  obtain ⟨_, hm, hn, _⟩ := C50_box_query l first last
  unfold getBetween
  simp only
  generalize (build l).findBetween first last = r at hm hn
  have hfirst : Spec.InSpan first last first := fun i => ⟨min_le_left _ _, le_max_left _ _⟩
  have hd : dot (diff first first) (diff last first) = 0 := by
    unfold dot diff
    simp
  have key : ∀ r : List (Idx (d + 1)), (∀ x ∈ r, Spec.InSpan first last x) → r.Nodup →
      r.filterMap (fun x => if 0 ≤ dot (diff first x) (diff last first) ∧ dot (diff first x) (diff last first) < 1 then
        if √(dot (fun i => diff first x i - diff last first i * dot (diff first x) (diff last first)) (fun i => diff first x i - diff last first i * dot (diff first x) (diff last first))) < 1 then
          some (x, dot (diff first x) (diff last first)) else none else none) = if first ∈ r then [(first, 0)] else [] := by
    intro r
    induction r with
    | nil => intro _ _; simp
    | cons x r ih =>
      intro hs hnd
      obtain ⟨hx, hr⟩ := List.nodup_cons.1 hnd
      have ih := ih (fun y hy => hs y (List.mem_cons_of_mem _ hy)) hr
      by_cases c : x = first
      · subst c
        rw [List.filterMap_cons, ih, if_neg hx, if_pos (List.mem_cons_self ..), hd, if_pos ⟨le_refl _, one_pos⟩]
        have e : (fun i => diff x x i - diff last x i * 0) = fun _ => (0 : ℝ) := by
          funext i
          unfold diff
          simp
        rw [e]
        have : dot (fun _ : Fin (d + 1) => (0 : ℝ)) (fun _ => 0) = 0 := by
          unfold dot
          simp
        rw [this, Real.sqrt_zero, if_pos one_pos]
      · have hne : ¬ (0 ≤ dot (diff first x) (diff last first) ∧ dot (diff first x) (diff last first) < 1) := by
          rintro ⟨h, _⟩
          exact c ((span_zero (hs x (List.mem_cons_self ..))).1 h)
        rw [List.filterMap_cons, if_neg hne, ih]
        have : first ∈ x :: r ↔ first ∈ r := by
          rw [List.mem_cons, or_iff_right]
          exact fun h => c h.symm
        simp only [this]
  rw [key r (fun x hx => ((hm x).1 hx).2) hn]
  have : first ∈ r ↔ first ∈ l := by
    rw [hm, and_iff_left hfirst]
  simp only [this]

/-- **C66** is false of the code: inserted indices on the segment itself, its end point among them, are not returned. -/
theorem C66_line_query_refuted :
    ¬ ∀ (d : Nat) (l : List (Idx (d + 1))) (first last x : Idx (d + 1)), x ∈ l → Spec.InSpan first last x → Spec.NearSegment first last x → ∃ t, (x, t) ∈ getBetween first last (build l) := by
  intro h
  obtain ⟨t, ht⟩ := h 0 [![1], ![2]] ![0] ![2] ![1] (List.mem_cons_self ..) (by intro i; fin_cases i; decide) ⟨1 / 2, by norm_num, by norm_num, by
    rw [Fin.sum_univ_one]
    norm_num⟩
  rw [C66_line_query_partial] at ht
  have : (![0] : Idx 1) ∉ [![1], ![2]] := by decide
  rw [if_neg this] at ht
  exact absurd ht (List.not_mem_nil)

example : getBetween ![0] ![2] (build [![1], ![0], ![2]]) = [(![0], 0)] := by
  rw [C66_line_query_partial, if_pos (by decide)]

end Ndt
