import Verif.Model.MonoAccess
import Verif.Props.Move
import Verif.Props.Raster

/-! Property theorems C87: the accessors of the single-resolution map. -/

namespace Ndt
namespace Mono
open MonoPair
variable {K : Type} [Field K] [LinearOrder K] [IsStrictOrderedRing K] [FloorRing K] {d : Nat}

omit [IsStrictOrderedRing K] in
theorem allocate_cells (i : Idx d) (m m' : Mono d (Multiset (Pt K d))) (h : m.getAllocate i = some m') :
    SameFrame m m' ∧ m.store.InBox i ∧ ∀ j, m'.store.cells j = if j = i then some ((m.store.cells i).getD 0) else m.store.cells j := by
  unfold getAllocate at h
  by_cases hb : m.store.InBox i
  · rw [if_pos (decide_eq_true hb)] at h
    cases hc : m.store.cells i with
    | none =>
      simp only [hc] at h
      cases h
      exact ⟨⟨rfl, rfl, rfl, rfl, rfl⟩, hb, fun j => rfl⟩
    | some s =>
      simp only [hc] at h
      cases h
      refine ⟨.refl m, hb, fun j => ?_⟩
      split
      · next e => rw [e, hc]; rfl
      · rfl
  · rw [if_neg (by rw [decide_eq_true_iff]; exact hb)] at h
    cases h

/-- the operation allocates the cell `i` -/
def Touches (g : Geo K d) (i : Idx d) : MonoOp K d → Prop
  | .insert p => ∀ a, (i a : K) * g.r ≤ g.toMap p a ∧ g.toMap p a < ((i a : K) + 1) * g.r
  | .distributionAt j => j = i

theorem monoStep_cells (g : Geo K d) (hr : 0 < g.r) (size : Fin d → Nat) (lo : Idx d) (op : MonoOp K d) (m m' : Mono d (Multiset (Pt K d))) (hF : SameFrame (init size lo) m)
    (h : monoStep g op m = some m') : SameFrame m m' ∧ ∀ i, (∀ a, lo a ≤ i a ∧ i a < lo a + size a) → ((m'.store.cells i).isSome = true ↔ (m.store.cells i).isSome = true ∨ Touches g i op) := by
  cases op with
  | distributionAt j =>
    obtain ⟨h1, h2, h3⟩ := allocate_cells j m m' h
    refine ⟨h1, fun i _ => ?_⟩
    rw [h3 i]
    by_cases e : i = j
    · subst e; simp [Touches]
    · rw [if_neg e]
      exact ⟨.inl, fun h => h.resolve_right fun h => e (show j = i from h).symm⟩
  | insert p =>
    refine ⟨insert_frame g p m m' h, fun i hi => ?_⟩
    have hacc : index g.r (g.toMap p) = i → m.accepts (index g.r (g.toMap p)) = true := by
      intro e
      rw [e]
      unfold accepts
      rw [decide_eq_true_iff, hF.lo, hF.hi]
      intro a
      exact ⟨(hi a).1, (hi a).2.le⟩
    have ht : Touches g i (.insert p) ↔ index g.r (g.toMap p) = i := (index_eq_iff hr _ _).symm
    rw [ht]
    change m.insert g p = some m' at h
    unfold Mono.insert toIndex at h
    by_cases ha : m.accepts (index g.r (g.toMap p)) = true
    · rw [if_pos ha] at h
      obtain ⟨m1, h1, h2⟩ := Option.map_eq_some_iff.1 h
      subst h2
      obtain ⟨-, -, h3⟩ := allocate_cells _ m m1 h1
      have e : ((modify (index g.r (g.toMap p)) (fun s => s + {p}) m1).store.cells i).isSome = (m1.store.cells i).isSome := by
        simp only [modify]
        split
        · next e => rw [e, Option.isSome_map]
        · rfl
      rw [e, h3 i]
      by_cases e : i = index g.r (g.toMap p)
      · subst e; simp
      · rw [if_neg e]
        exact ⟨.inl, fun h => h.resolve_right fun h => e h.symm⟩
    · rw [if_neg ha] at h
      cases h
      exact ⟨.inl, fun h => h.resolve_right fun h => ha (hacc h)⟩

theorem monoRun_cells (g : Geo K d) (hr : 0 < g.r) (size : Fin d → Nat) (lo : Idx d) : ∀ (ops : List (MonoOp K d)) (m m' : Mono d (Multiset (Pt K d))), SameFrame (init size lo) m →
    monoRun g ops m = some m' → SameFrame (init size lo) m' ∧
      ∀ i, (∀ a, lo a ≤ i a ∧ i a < lo a + size a) → ((m'.store.cells i).isSome = true ↔ (m.store.cells i).isSome = true ∨ ∃ op ∈ ops, Touches g i op)
  | [], m, m', hF, h => by cases h; exact ⟨hF, fun i _ => by simp⟩
  | op :: l, m, m', hF, h => by
    obtain ⟨m1, h1, h2⟩ := Option.bind_eq_some_iff.1 h
    obtain ⟨a1, a2⟩ := monoStep_cells g hr size lo op m m1 hF h1
    obtain ⟨b1, b2⟩ := monoRun_cells g hr size lo l m1 m' (hF.trans a1) h2
    refine ⟨b1, fun i hi => ?_⟩
    rw [b2 i hi, a2 i hi, or_assoc]
    simp

/-- **C87** (indices). After any history, `getIndices` lists exactly the cells of the map that were requested by their index or into which a point fell, each once. -/
theorem C87_indices (g : Geo K d) (hr : 0 < g.r) (size : Fin d → Nat) (lo : Idx d) (ops : List (MonoOp K d)) (m : Mono d (Multiset (Pt K d))) (h : monoRun g ops (init size lo) = some m) :
    m.indices.Nodup ∧ ∀ i, i ∈ m.indices ↔ (∀ a, lo a ≤ i a ∧ i a < lo a + size a) ∧
      (MonoOp.distributionAt i ∈ ops ∨ ∃ p, MonoOp.insert p ∈ ops ∧ ∀ a, (i a : K) * g.r ≤ g.toMap p a ∧ g.toMap p a < ((i a : K) + 1) * g.r) := by
  refine ⟨(arrayLawful d).nodup_traverse m.store trivial, fun i => ?_⟩
  obtain ⟨hF, hc⟩ := monoRun_cells g hr size lo ops _ m (.refl _) h
  have hm : i ∈ m.indices ↔ m.store.InBox i ∧ (m.store.cells i).isSome = true := by
    unfold indices
    rw [List.mem_map]
    constructor
    · rintro ⟨⟨j, v⟩, hj, rfl⟩
      have := ((arrayLawful d).mem_traverse m.store trivial j v).1 hj
      unfold Backend.look at this
      split at this
      · next hb => exact ⟨of_decide_eq_true hb, by rw [show m.store.cells j = some v from this]; rfl⟩
      · cases this
    · rintro ⟨hb, hs⟩
      obtain ⟨v, hv⟩ := Option.isSome_iff_exists.1 hs
      refine ⟨(i, v), ((arrayLawful d).mem_traverse m.store trivial i v).2 ?_, rfl⟩
      unfold Backend.look
      rw [if_pos (decide_eq_true hb)]; exact hv
  rw [hm, hF.inBox]
  show (∀ a, lo a ≤ i a ∧ i a < lo a + (size a : Int)) ∧ _ ↔ _
  refine and_congr_right fun hi => ?_
  rw [hc i hi]
  have h0 : ((init size lo : Mono d (Multiset (Pt K d))).store.cells i).isSome = false := rfl
  rw [h0]
  constructor
  · rintro (h | ⟨op, hop, ht⟩)
    · cases h
    · cases op with
      | insert p => exact .inr ⟨p, hop, ht⟩
      | distributionAt j => cases (show j = i from ht); exact .inl hop
  · rintro (h | ⟨p, hp, ht⟩)
    · exact .inr ⟨_, h, rfl⟩
    · exact .inr ⟨_, hp, ht⟩

/-- **C87** (corners). After any history, `validate` accepts a point exactly if its map coordinates lie between `getMin` (inclusive) and `getMax` (exclusive), and all cells of the map lie in the rectangle of size
`getWidth` × `getHeight` at `getMin`. -/
theorem C87_corners (g : Geo K d) (hr : 0 < g.r) (size : Fin d → Nat) (lo : Idx d) (ops : List (MonoOp K d)) (m : Mono d (Multiset (Pt K d))) (h : monoRun g ops (init size lo) = some m) :
    (∀ p, m.validate g p = true ↔ ∀ a, m.getMin g.r a ≤ g.toMap p a ∧ g.toMap p a < m.getMax g.r a) ∧
    ∀ i ∈ m.indices, ∀ a, m.getMin g.r a ≤ (i a : K) * g.r ∧ ((i a : K) + 1) * g.r ≤ m.getMin g.r a + m.extent g.r a := by
  obtain ⟨hF, -⟩ := monoRun_cells g hr size lo ops _ m (.refl _) h
  refine ⟨fun p => ?_, fun i hi a => ?_⟩
  · unfold validate
    rw [accepts_iff hr size lo m hF]
    unfold InArea getMin getMax
    rw [hF.lo, hF.hi]
    refine forall_congr' fun a => ?_
    show _ ↔ (lo a : K) * g.r ≤ _ ∧ _ < ((lo a + (size a : Int) + 1 : Int) : K) * g.r
    push_cast
    rfl
  · obtain ⟨h1, h2⟩ := (((C87_indices g hr size lo ops m h).2 i).1 hi).1 a
    unfold getMin extent
    rw [hF.lo, hF.size]
    show (lo a : K) * g.r ≤ _ ∧ _ ≤ (lo a : K) * g.r + (size a : K) * g.r
    have h1' : (lo a : K) ≤ i a := by exact_mod_cast h1
    have h2' : (i a : K) + 1 ≤ (lo a : K) + size a := by exact_mod_cast h2
    refine ⟨mul_le_mul_of_nonneg_right h1' hr.le, ?_⟩
    rw [← add_mul]
    exact mul_le_mul_of_nonneg_right h2' hr.le

/-- **C87 refuted (size).** In every single-resolution map the extent from `getMin` to `getMax` exceeds `getWidth` and `getHeight` by one cell. -/
theorem C87_extent_refuted (g : Geo K d) (hr : 0 < g.r) (size : Fin d → Nat) (lo : Idx d) (ops : List (MonoOp K d)) (m : Mono d (Multiset (Pt K d))) (h : monoRun g ops (init size lo) = some m) (a : Fin d) :
    m.getMax g.r a - m.getMin g.r a = m.extent g.r a + g.r ∧ m.extent g.r a ≠ m.getMax g.r a - m.getMin g.r a := by
  obtain ⟨hF, -⟩ := monoRun_cells g hr size lo ops _ m (.refl _) h
  have e : m.getMax g.r a - m.getMin g.r a = m.extent g.r a + g.r := by
    unfold getMin getMax extent
    rw [hF.lo, hF.hi, hF.size]
    show ((lo a + (size a : Int) + 1 : Int) : K) * g.r - (lo a : K) * g.r = (size a : K) * g.r + g.r
    push_cast
    ring
  exact ⟨e, by rw [e]; intro h; linarith⟩

/-- **C87** (`get`). After any history, `get` at a point returns the distribution of the cell the point is in, if the point lies in the rectangle of size `getWidth` × `getHeight` at `getMin`, and null if it does not lie between `getMin` and
`getMax`. The points between the two regions are accesses outside of the array (C40). -/
theorem C87_get_partial (g : Geo K d) (hr : 0 < g.r) (size : Fin d → Nat) (lo : Idx d) (ops : List (MonoOp K d)) (m : Mono d (Multiset (Pt K d))) (h : monoRun g ops (init size lo) = some m) (p : Pt K d) :
    (∀ i : Idx d, (∀ a, (i a : K) * g.r ≤ g.toMap p a ∧ g.toMap p a < ((i a : K) + 1) * g.r) →
      (∀ a, m.getMin g.r a ≤ g.toMap p a ∧ g.toMap p a < m.getMin g.r a + m.extent g.r a) → m.getAt g p = some (m.store.cells i)) ∧
    ((¬ ∀ a, m.getMin g.r a ≤ g.toMap p a ∧ g.toMap p a < m.getMax g.r a) → m.getAt g p = some none) ∧
    ((∀ a, m.getMin g.r a ≤ g.toMap p a ∧ g.toMap p a < m.getMax g.r a) → (¬ ∀ a, m.getMin g.r a ≤ g.toMap p a ∧ g.toMap p a < m.getMin g.r a + m.extent g.r a) → m.getAt g p = none) := by
  obtain ⟨hF, -⟩ := monoRun_cells g hr size lo ops _ m (.refl _) h
  have hv := (C87_corners g hr size lo ops m h).1 p
  have hA : (∀ a, m.getMin g.r a ≤ g.toMap p a ∧ g.toMap p a < m.getMin g.r a + m.extent g.r a) ↔ m.store.InBox (index g.r (g.toMap p)) := by
    rw [inBox_iff hr size lo m hF]
    unfold InArea getMin extent
    rw [hF.lo, hF.size]
    refine forall_congr' fun a => ?_
    show (lo a : K) * g.r ≤ _ ∧ _ < (lo a : K) * g.r + (size a : K) * g.r ↔ _
    rw [add_zero, add_mul]
  rw [hA, ← hv]
  unfold getAt toIndex validate
  refine ⟨fun i hi hb => ?_, fun hn => by rw [if_neg hn], fun hy hb => ?_⟩
  · rw [(index_eq_iff hr _ _).2 hi] at hb ⊢
    have hacc : m.accepts i = true := by
      unfold accepts
      rw [decide_eq_true_iff, hF.lo, hF.hi]
      rw [hF.inBox] at hb
      intro a
      exact ⟨(hb a).1, (hb a).2.le⟩
    rw [if_pos hacc]
    show (if _ then _ else _) = _
    rw [if_pos (decide_eq_true hb)]
  · rw [if_pos hy]
    show (if _ then _ else _) = _
    rw [if_neg (by rw [decide_eq_true_iff]; exact hb)]

omit [FloorRing K] in
/-- **C87** (origin, part). `getOrigin` is the world position of the corner `getMin` exactly if the transform of the map does not rotate or that corner is the origin of the map. -/
theorem C87_origin_partial {D : Type} (r : K) (T : Pose2 K) (hT : T.c ^ 2 + T.s ^ 2 = 1) (m : Mono 2 D) :
    (m.monoOrigin r T).t = T.apply (m.getMin r) ↔ (T.c = 1 ∧ T.s = 0) ∨ (m.getMin r 0 = 0 ∧ m.getMin r 1 = 0) := by
  have e : (m.monoOrigin r T).t = T.apply (m.getMin r) ↔
      (T.c * m.getMin r 0 - T.s * m.getMin r 1 = m.getMin r 0 ∧ T.s * m.getMin r 0 + T.c * m.getMin r 1 = m.getMin r 1) := by
    unfold monoOrigin Pose2.apply
    rw [funext_iff, Fin.forall_fin_two]
    simp only [Fin.isValue, Matrix.cons_val_zero, Matrix.cons_val_one, Matrix.cons_val_fin_one]
    constructor
    · rintro ⟨h1, h2⟩; exact ⟨by linear_combination -h1, by linear_combination -h2⟩
    · rintro ⟨h1, h2⟩; exact ⟨by linear_combination -h1, by linear_combination -h2⟩
  rw [e]
  generalize m.getMin r 0 = x
  generalize m.getMin r 1 = y
  constructor
  · rintro ⟨h1, h2⟩
    by_cases hc : T.c = 1
    · left
      refine ⟨hc, ?_⟩
      rw [hc] at hT
      have : T.s ^ 2 = 0 := by linear_combination hT
      exact pow_eq_zero_iff (two_ne_zero) |>.1 this
    · right
      have h3 : (1 - T.c) * (x ^ 2 + y ^ 2) = 0 := by linear_combination -x * h1 - y * h2
      have h4 : x ^ 2 + y ^ 2 = 0 := (mul_eq_zero.1 h3).resolve_left (fun h => hc (by linear_combination -h))
      constructor
      · nlinarith [sq_nonneg x, sq_nonneg y]
      · nlinarith [sq_nonneg x, sq_nonneg y]
  · rintro (⟨h1, h2⟩ | ⟨h1, h2⟩)
    · rw [h1, h2]; constructor <;> ring
    · rw [h1, h2]; constructor <;> ring

def accessRun : Option (Mono 1 (Multiset (Pt ℚ 1))) := monoRun oneGeo [.insert ![1/2], .distributionAt ![1], .insert ![1/3], .insert ![7]] (init ![3] ![0])
theorem accessRun_runs : accessRun.isSome = true := by decide +kernel

/-- Non-vacuity: a history with points in one cell, a requested cell and a point outside; two of the three cells are listed. -/
example : ∃ m, monoRun oneGeo [.insert ![1/2], .distributionAt ![1], .insert ![1/3], .insert ![7]] (init ![3] ![0]) = some m ∧ m.indices = [![0], ![1]] ∧
    m.getAt oneGeo ![2/3] = some (some {![1/2], ![1/3]}) ∧ m.getAt oneGeo ![5/2] = some none ∧ m.getAt oneGeo ![7/2] = none :=
  ⟨accessRun.get accessRun_runs, (Option.some_get accessRun_runs).symm, by decide +kernel, by decide +kernel, by decide +kernel, by decide +kernel⟩

/-- **C87 refuted (origin).** A map of 3 x 2 cells, rotated by 90 degrees, whose corner is not the origin of the map, is reported at a wrong place. -/
theorem C87_rotated_refuted : (monoOrigin (1 : ℚ) ⟨0, 1, ![0, 0]⟩ (init ![3, 2] ![1, 0] : Mono 2 Unit)).t ≠ Pose2.apply ⟨0, 1, ![0, 0]⟩ (getMin (1 : ℚ) (init ![3, 2] ![1, 0] : Mono 2 Unit)) := by
  intro h
  rcases (C87_origin_partial (1 : ℚ) ⟨0, 1, ![0, 0]⟩ (by norm_num) _).1 h with h | h
  · exact absurd h.1 (by norm_num)
  · exact absurd h.1 (by decide +kernel)

end Mono
end Ndt
