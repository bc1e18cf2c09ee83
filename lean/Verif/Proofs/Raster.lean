import Verif.Model.Raster
import Verif.Props.Sampling
import Verif.Props.SerialMore
import Mathlib.Tactic.Ring
import Mathlib.Tactic.Linarith
import Mathlib.Tactic.FieldSimp

/-! Lemmas on rasterisation. -/

namespace Ndt
open St

theorem Grid.writeAll_spec {V : Type} : ∀ (l : List (Int × Int × V)) (g : Grid V), (∀ e ∈ l, 0 ≤ e.1 ∧ e.1 < g.width ∧ 0 ≤ e.2.1 ∧ e.2.1 < g.height) →
    (l.map fun e => (e.1, e.2.1)).Nodup →
    ∃ g', Grid.writeAll l g = some g' ∧ g'.width = g.width ∧ g'.height = g.height ∧ (∀ e ∈ l, g'.cells e.1.toNat e.2.1.toNat = e.2.2) ∧
      (∀ i j : Nat, ((i : Int), (j : Int)) ∉ l.map (fun e => (e.1, e.2.1)) → g'.cells i j = g.cells i j)
  | [], g, _, _ => ⟨g, rfl, rfl, rfl, by simp, by simp⟩
  | (u, v, x) :: l, g, hr, hn => by
    rw [List.map_cons, List.nodup_cons] at hn
    have h0 := hr _ (List.mem_cons_self ..)
    simp only at h0
    have hw : g.write u v x = some { g with cells := fun i j => if (i : Int) = u ∧ (j : Int) = v then x else g.cells i j } := by
      unfold Grid.write; rw [if_pos h0]
    obtain ⟨g', h1, h2, h3, h4, h5⟩ := Grid.writeAll_spec l { g with cells := fun i j => if (i : Int) = u ∧ (j : Int) = v then x else g.cells i j }
      (fun e he => hr e (List.mem_cons_of_mem _ he)) hn.2
    refine ⟨g', ?_, h2, h3, ?_, ?_⟩
    · simp only [Grid.writeAll, hw, Option.bind_some, h1]
    · intro e he
      rcases List.mem_cons.1 he with rfl | he
      · simp only
        rw [h5 u.toNat v.toNat (by
          rw [Int.toNat_of_nonneg h0.1, Int.toNat_of_nonneg h0.2.2.1]; exact hn.1)]
        simp only
        rw [Int.toNat_of_nonneg h0.1, Int.toNat_of_nonneg h0.2.2.1, if_pos ⟨rfl, rfl⟩]
      · exact h4 e he
    · intro i j hij
      rw [List.map_cons, List.mem_cons, not_or] at hij
      rw [h5 i j hij.2]
      simp only
      rw [if_neg]
      rintro ⟨e1, e2⟩
      exact hij.1 (by rw [e1, e2])

/-- a row number determines the bundle and the offset in it -/
theorem chunk_unique {n : Nat} {x y : Int} {k l : Nat} (hk : k < n) (hl : l < n) (h : x * (n : Int) + (k : Int) = y * (n : Int) + (l : Int)) : x = y ∧ k = l := by
  have hn : (0 : Int) < n := by omega
  have h1 : (x * (n : Int) + (k : Int)) / n = x := by
    rw [add_comm, Int.add_mul_ediv_right _ _ hn.ne', Int.ediv_eq_zero_of_lt (by omega) (by omega), zero_add]
  have h2 : (y * (n : Int) + (l : Int)) / n = y := by
    rw [add_comm, Int.add_mul_ediv_right _ _ hn.ne', Int.ediv_eq_zero_of_lt (by omega) (by omega), zero_add]
  rw [h, h2] at h1
  subst h1
  exact ⟨rfl, by omega⟩

section
variable {K : Type} [Field K] [LinearOrder K] [IsStrictOrderedRing K] [FloorRing K]

theorem mem_rasterCells {V : Type} (r s : K) (lo bi : Idx 2) (val : Pt K 2 → (Fin 2 → K) → V) (e : Int × Int × V) :
    e ∈ rasterCells r s lo bi val ↔ ∃ k l, k < chunkStep r s ∧ l < chunkStep r s ∧
      e = ((bi 0 - lo 0) * (chunkStep r s : Int) + (k : Int), (bi 1 - lo 1) * (chunkStep r s : Int) + (l : Int),
        val ![(bi 0 : K) * bundleResolution r + (k : K) * s, (bi 1 : K) * bundleResolution r + (l : K) * s] ![chunkWeight (bi 0) k (chunkStep r s), chunkWeight (bi 1) l (chunkStep r s)]) := by
  unfold rasterCells
  simp only [List.mem_flatMap, List.mem_map, List.mem_range]
  constructor
  · rintro ⟨k, hk, l, hl, rfl⟩; exact ⟨k, l, hk, hl, rfl⟩
  · rintro ⟨k, l, hk, hl, rfl⟩; exact ⟨k, hk, l, hl, rfl⟩

theorem rasterCells_nodup {V : Type} (r s : K) (lo bi : Idx 2) (val : Pt K 2 → (Fin 2 → K) → V) : ((rasterCells r s lo bi val).map fun e => (e.1, e.2.1)).Nodup := by
  unfold rasterCells
  simp only [List.map_flatMap, List.map_map]
  rw [List.nodup_flatMap]
  constructor
  · intro k _
    refine List.Nodup.map_on ?_ List.nodup_range
    intro l hl l' hl' h
    simp only [Function.comp_apply, Prod.mk.injEq] at h
    omega
  · refine List.Pairwise.imp_of_mem ?_ List.nodup_range
    intro k k' hk hk' hne
    rw [Function.onFun, List.disjoint_left]
    intro e he he'
    obtain ⟨l, _, rfl⟩ := List.mem_map.1 he
    obtain ⟨l', _, h⟩ := List.mem_map.1 he'
    simp only [Function.comp_apply, Prod.mk.injEq] at h
    omega

variable {B : Backend 2} {D V : Type}

theorem rasterWrites_nodup (L : B.Lawful) (r s : K) (val : Bundle → Pt K 2 → (Fin 2 → K) → V) (st : St B D) (hI : L.Inv st.bundles) :
    ((rasterWrites r s val st).map fun e => (e.1, e.2.1)).Nodup := by
  unfold rasterWrites
  rw [List.map_flatMap, List.nodup_flatMap]
  refine ⟨fun e _ => rasterCells_nodup .., ?_⟩
  have hp : (B.traverse st.bundles).Pairwise fun a b => a.1 ≠ b.1 := List.pairwise_map.1 (L.nodup_traverse _ hI)
  refine hp.imp ?_
  intro a b hne
  rw [Function.onFun, List.disjoint_left]
  intro e he he'
  obtain ⟨x, hx, rfl⟩ := List.mem_map.1 he
  obtain ⟨y, hy, hxy⟩ := List.mem_map.1 he'
  obtain ⟨k, l, hk, hl, rfl⟩ := (mem_rasterCells ..).1 hx
  obtain ⟨k', l', hk', hl', rfl⟩ := (mem_rasterCells ..).1 hy
  simp only [Prod.mk.injEq] at hxy
  have h0 := (chunk_unique hk' hk hxy.1).1
  have h1 := (chunk_unique hl' hl hxy.2).1
  refine hne (funext fun a => ?_)
  fin_cases a <;> simp <;> omega

theorem chunk_le {r s : K} (hr : 0 < r) (hs : 0 < s) : (chunkStep r s : K) * s ≤ bundleResolution r := by
  have hb : (0 : K) < bundleResolution r := by unfold bundleResolution; positivity
  rw [← le_div_iff₀ hs]
  unfold chunkStep
  have h0 : 0 ≤ ⌊bundleResolution r / s⌋ := Int.floor_nonneg.2 (div_nonneg hb.le hs.le)
  have : ((⌊bundleResolution r / s⌋.toNat : Nat) : K) = ((⌊bundleResolution r / s⌋ : Int) : K) := by
    rw [← Int.cast_natCast, Int.toNat_of_nonneg h0]
  rw [this]; exact Int.floor_le _

theorem rasterExtent_eq {r s : K} (hr : 0 < r) (hs : 0 < s) (st : St B D) (a : Fin 2) (h : st.minB a ≤ st.maxB a) (h' : st.maxB a - st.minB a < 2147483647) :
    ∃ w, rasterExtent r s st a = some w ∧ (w : Int) = ⌈((st.maxB a - st.minB a + 1 : Int) : K) * bundleResolution r / s⌉ ∧ (st.maxB a - st.minB a + 1) * (chunkStep r s : Int) ≤ w := by
  have hb : (0 : K) < bundleResolution r := by unfold bundleResolution; positivity
  have hx : (0 : K) ≤ ((st.maxB a - st.minB a + 1 : Int) : K) := by exact_mod_cast (by omega : (0 : Int) ≤ st.maxB a - st.minB a + 1)
  have h0 : 0 ≤ ⌈((st.maxB a - st.minB a + 1 : Int) : K) * bundleResolution r / s⌉ := Int.ceil_nonneg (div_nonneg (mul_nonneg hx hb.le) hs.le)
  refine ⟨⌈((st.maxB a - st.minB a + 1 : Int) : K) * bundleResolution r / s⌉.toNat, ?_, Int.toNat_of_nonneg h0, ?_⟩
  · unfold rasterExtent intSub
    rw [if_pos (by omega)]
    simp only
    rw [if_pos (by omega)]
  · rw [Int.toNat_of_nonneg h0]
    have : (((st.maxB a - st.minB a + 1) * (chunkStep r s : Int) : Int) : K) ≤ ((st.maxB a - st.minB a + 1 : Int) : K) * bundleResolution r / s := by
      rw [le_div_iff₀ hs]
      push_cast
      have := mul_le_mul_of_nonneg_left (chunk_le hr hs) hx
      push_cast at this
      linarith
    exact_mod_cast this.trans (Int.le_ceil _)

end
end Ndt
