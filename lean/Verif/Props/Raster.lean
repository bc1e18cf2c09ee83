import Verif.Proofs.Raster
import Mathlib.Algebra.Order.Floor.Ring
import Mathlib.Tactic.Positivity
import Mathlib.Tactic.LinearCombination

/-! Property theorems C42, C56: rasterisation of maps. -/

namespace Ndt
open St
variable {K : Type} [Field K] [LinearOrder K] [IsStrictOrderedRing K] [FloorRing K] {D V : Type} [Inhabited D]

/-- all bundles are within the bounds, and the extent of the bounds is representable -/
theorem raster_bounds {k : Kind 2} {exp : D → Bool} {st : St k.backend D} (hR : MapReachable k exp st) (hne : st.bundleIndices ≠ [])
    (hfit : ∀ size lo, k = .static size lo → ∀ a, 2 * size a ≤ 2147483647) :
    ∀ a, st.minB a ≤ st.maxB a ∧ st.maxB a - st.minB a < 2147483647 ∧ ∀ bi ∈ st.bundleIndices, st.minB a ≤ bi a ∧ bi a ≤ st.maxB a := by
  cases k with
  | dynamic g g' =>
    intro a
    have h := dyn_bounds hR.spec.1 hne a
    refine ⟨h.2.1, by omega, ?_⟩
    intro bi hb
    have hI : RInv (octreeLawful 2) true st := hR.spec.1
    have hal : bi ∈ st.abs.allocated := (mem_allocated_iff st bi).2 ((mem_bundleIndices (octreeLawful 2) st hI.inv bi).1 hb)
    rcases hI.ainv.bounds rfl with ⟨he, _⟩ | ⟨_, ht⟩
    · rw [he] at hal; exact absurd hal (Set.notMem_empty _)
    · obtain ⟨⟨_, h1⟩, _, h2⟩ := ht a
      exact ⟨h1 ⟨bi, hal, rfl⟩, h2 ⟨bi, hal, rfl⟩⟩
  | static size lo =>
    intro a
    obtain ⟨h1, h2, -⟩ := static_bounds hR
    have hf := hfit size lo rfl a
    obtain ⟨b0, hb0⟩ := List.exists_mem_of_ne_nil _ hne
    have hv := static_valid_of hR b0 hb0 a
    rw [h1, h2]
    refine ⟨by push_cast; omega, by push_cast; omega, ?_⟩
    intro bi hb
    have := static_valid_of hR bi hb a
    push_cast
    omega

theorem mem_rasterWrites {B : Backend 2} (r s : K) (val : Bundle → Pt K 2 → (Fin 2 → K) → V) (st : St B D) (e : Int × Int × V) :
    e ∈ rasterWrites r s val st ↔ ∃ x ∈ B.traverse st.bundles, ∃ k l, k < chunkStep r s ∧ l < chunkStep r s ∧
      e = ((x.1 0 - st.minB 0) * (chunkStep r s : Int) + (k : Int), (x.1 1 - st.minB 1) * (chunkStep r s : Int) + (l : Int),
        val x.2 ![(x.1 0 : K) * bundleResolution r + (k : K) * s, (x.1 1 : K) * bundleResolution r + (l : K) * s]
          ![chunkWeight (x.1 0) k (chunkStep r s), chunkWeight (x.1 1) l (chunkStep r s)]) := by
  unfold rasterWrites
  rw [List.mem_flatMap]
  refine exists_congr fun x => and_congr Iff.rfl ?_
  rw [mem_rasterCells]

theorem chunk_bound {n : Nat} {x y w : Int} {k : Nat} (hx : 0 ≤ x) (hxy : x ≤ y) (hk : k < n) (h : (y + 1) * (n : Int) ≤ w) : 0 ≤ x * (n : Int) + (k : Int) ∧ x * (n : Int) + (k : Int) < w := by
  have h1 : 0 ≤ x * (n : Int) := mul_nonneg hx (by omega)
  have h2 : x * (n : Int) ≤ y * (n : Int) := mul_le_mul_of_nonneg_right hxy (by omega)
  have h3 : (y + 1) * (n : Int) = y * n + n := by ring
  omega

/-- **C42** (safety). For every sampling resolution and every reachable non-empty map, the rasterisation is defined, that is every write is inside of the target, and no cell is written twice. -/
theorem C42_safe (k : Kind 2) (exp : D → Bool) (st : St k.backend D) (hR : MapReachable k exp st) (hne : st.bundleIndices ≠ [])
    (hfit : ∀ size lo, k = .static size lo → ∀ a, 2 * size a ≤ 2147483647) (r s : K) (hr : 0 < r) (hs : 0 < s) (dflt : V) (val : Bundle → Pt K 2 → (Fin 2 → K) → V) :
    ∃ G, rasterize r s dflt val st = some G ∧ ((rasterWrites r s val st).map fun e => (e.1, e.2.1)).Nodup ∧
      (G.width : Int) = ⌈((st.maxB 0 - st.minB 0 + 1 : Int) : K) * bundleResolution r / s⌉ ∧ (G.height : Int) = ⌈((st.maxB 1 - st.minB 1 + 1 : Int) : K) * bundleResolution r / s⌉ ∧
      (∀ e ∈ rasterWrites r s val st, G.cells e.1.toNat e.2.1.toNat = e.2.2 ∧ 0 ≤ e.1 ∧ 0 ≤ e.2.1) ∧
      (∀ i j : Nat, ((i : Int), (j : Int)) ∉ (rasterWrites r s val st).map (fun e => (e.1, e.2.1)) → G.cells i j = dflt) := by
  have hb := raster_bounds hR hne hfit
  obtain ⟨w, hw, hw', hwn⟩ := rasterExtent_eq hr hs st 0 (hb 0).1 (hb 0).2.1
  obtain ⟨h, hh, hh', hhn⟩ := rasterExtent_eq hr hs st 1 (hb 1).1 (hb 1).2.1
  have hnd := rasterWrites_nodup k.lawful r s val st hR.spec.1.inv.bstore
  have hin : ∀ e ∈ rasterWrites r s val st, 0 ≤ e.1 ∧ e.1 < w ∧ 0 ≤ e.2.1 ∧ e.2.1 < h := by
    intro e he
    obtain ⟨x, hx, i, j, hi, hj, rfl⟩ := (mem_rasterWrites ..).1 he
    have hxm : x.1 ∈ st.bundleIndices := List.mem_map.2 ⟨x, hx, rfl⟩
    have h0 := (hb 0).2.2 _ hxm
    have h1 := (hb 1).2.2 _ hxm
    have e0 := chunk_bound (x := x.1 0 - st.minB 0) (y := st.maxB 0 - st.minB 0) (by omega) (by omega) hi hwn
    have e1 := chunk_bound (x := x.1 1 - st.minB 1) (y := st.maxB 1 - st.minB 1) (by omega) (by omega) hj hhn
    exact ⟨e0.1, e0.2, e1.1, e1.2⟩
  obtain ⟨G, g1, g2, g3, g4, g5⟩ := Grid.writeAll_spec (rasterWrites r s val st) ⟨w, h, fun _ _ => dflt⟩ hin hnd
  refine ⟨G, ?_, hnd, ?_, ?_, fun e he => ⟨g4 e he, (hin e he).1, (hin e he).2.2.1⟩, fun i j hij => g5 i j hij⟩
  · unfold rasterize; rw [hw, hh]; exact g1
  · rw [g2]; exact hw'
  · rw [g3]; exact hh'

/-- The lower corner of target cell `(u, v)` in map coordinates. -/
def Spec.cellCorner {B : Backend 2} (r s : K) (st : St B D) (u v : Nat) : Pt K 2 := ![getMin r st 0 + (u : K) * s, getMin r st 1 + (v : K) * s]

theorem chunkStep_eq {r s : K} (hs : 0 < s) {n : Nat} (hdiv : r / 2 = (n : K) * s) : chunkStep r s = n ∧ bundleResolution r = (n : K) * s := by
  have e : bundleResolution r = (n : K) * s := by rw [← hdiv]; unfold bundleResolution; ring
  refine ⟨?_, e⟩
  unfold chunkStep
  rw [e, mul_div_assoc, div_self hs.ne', mul_one, Int.floor_natCast, Int.toNat_natCast]

/-- (for arbitrary values computed from the bundles) When the sampling resolution divides the bundle resolution `r / 2`, the target has one cell per sampling step of the bounding box, every cell whose corner is in an allocated bundle holds the value of the bundle
at that corner, with the interpolation weights of that corner,, and every other cell holds the default value. -/
theorem raster_exact (k : Kind 2) (exp : D → Bool) (st : St k.backend D) (hR : MapReachable k exp st) (hne : st.bundleIndices ≠ [])
    (hfit : ∀ size lo, k = .static size lo → ∀ a, 2 * size a ≤ 2147483647) (r s : K) (hs : 0 < s) (n : Nat) (hn : 0 < n) (hdiv : r / 2 = (n : K) * s)
    (dflt : V) (val : Bundle → Pt K 2 → (Fin 2 → K) → V) :
    ∃ G, rasterize r s dflt val st = some G ∧ (G.width : Int) = (st.maxB 0 - st.minB 0 + 1) * n ∧ (G.height : Int) = (st.maxB 1 - st.minB 1 + 1) * n ∧
      ∀ u v b, u < G.width → v < G.height → Spec.InBundle r b (Spec.cellCorner r s st u v) →
        (∀ bd, (b, bd) ∈ k.backend.traverse st.bundles → G.cells u v = val bd (Spec.cellCorner r s st u v) (interpolationWeights b (Spec.cellCorner r s st u v) (bundleResolutionInv r))) ∧
        (b ∉ st.bundleIndices → G.cells u v = dflt) := by
  have hnK : (0 : K) < n := by exact_mod_cast hn
  have hr : 0 < r := by
    have : 0 < r / 2 := by rw [hdiv]; positivity
    linarith
  obtain ⟨hcs, hbr⟩ := chunkStep_eq hs hdiv
  obtain ⟨G, h1, h2, h3, h4, h5, h6⟩ := C42_safe k exp st hR hne hfit r s hr hs dflt val
  have hext : ∀ x : Int, ⌈(x : K) * bundleResolution r / s⌉ = x * n := by
    intro x
    rw [hbr, ← mul_assoc, mul_div_assoc, div_self hs.ne', mul_one, show (x : K) * (n : K) = ((x * n : Int) : K) by push_cast; rfl, Int.ceil_intCast]
  rw [hext] at h3 h4
  refine ⟨G, h1, h3, h4, ?_⟩
  intro u v b hu hv hb
  have hbd := raster_bounds hR hne hfit
  -- the bundle of a row
  have key : ∀ (m x : Int) (u : Nat), (x : K) * (r / 2) ≤ (m : K) * bundleResolution r + (u : K) * s ∧ (m : K) * bundleResolution r + (u : K) * s < ((x : K) + 1) * (r / 2) →
      x = m + (u / n : Nat) := by
    intro m x u ⟨ha, hb⟩
    rw [hdiv] at ha hb
    rw [hbr] at ha hb
    have ha' : (x * n : Int) ≤ m * n + u := by
      have : ((x * n : Int) : K) * s ≤ ((m * n + u : Int) : K) * s := by push_cast; linarith
      exact_mod_cast le_of_mul_le_mul_right this hs
    have hb' : (m * n + u : Int) < (x + 1) * n := by
      have : ((m * n + u : Int) : K) * s < (((x + 1) * n : Int) : K) * s := by push_cast; linarith
      exact_mod_cast lt_of_mul_lt_mul_right this hs.le
    have hx : (u : Int) / n = x - m := by
      rw [Int.ediv_eq_iff_of_pos (by omega)]
      constructor <;> nlinarith
    push_cast
    omega
  have hb0 : b 0 = st.minB 0 + (u / n : Nat) := key _ _ u (hb 0)
  have hb1 : b 1 = st.minB 1 + (v / n : Nat) := key _ _ v (hb 1)
  have hum : ((b 0 - st.minB 0) * (n : Int) + ((u % n : Nat) : Int)) = u := by
    rw [hb0, show st.minB 0 + ((u / n : Nat) : Int) - st.minB 0 = ((u / n : Nat) : Int) by ring]
    exact_mod_cast Nat.div_add_mod' u n
  have hvm : ((b 1 - st.minB 1) * (n : Int) + ((v % n : Nat) : Int)) = v := by
    rw [hb1, show st.minB 1 + ((v / n : Nat) : Int) - st.minB 1 = ((v / n : Nat) : Int) by ring]
    exact_mod_cast Nat.div_add_mod' v n
  constructor
  · intro bd he
    have hmem := (mem_rasterWrites r s val st _).2 ⟨(b, bd), he, u % n, v % n, by rw [hcs]; exact Nat.mod_lt _ hn, by rw [hcs]; exact Nat.mod_lt _ hn, rfl⟩
    have hc := (h5 _ hmem).1
    simp only [hcs] at hc
    rw [hum, hvm, Int.toNat_natCast, Int.toNat_natCast] at hc
    have hpos : (![(b 0 : K) * bundleResolution r + ((u % n : Nat) : K) * s, (b 1 : K) * bundleResolution r + ((v % n : Nat) : K) * s] : Pt K 2) = Spec.cellCorner r s st u v := by
      have hu' : ((b 0 : K) - st.minB 0) * n + ((u % n : Nat) : K) = u := by
        have := congrArg (Int.cast : Int → K) hum
        rw [Int.cast_add, Int.cast_mul, Int.cast_sub, Int.cast_natCast, Int.cast_natCast, Int.cast_natCast] at this
        exact this
      have hv' : ((b 1 : K) - st.minB 1) * n + ((v % n : Nat) : K) = v := by
        have := congrArg (Int.cast : Int → K) hvm
        rw [Int.cast_add, Int.cast_mul, Int.cast_sub, Int.cast_natCast, Int.cast_natCast, Int.cast_natCast] at this
        exact this
      have e0 : (b 0 : K) * bundleResolution r + ((u % n : Nat) : K) * s = getMin r st 0 + (u : K) * s := by
        unfold getMin; rw [hbr, ← hu']; ring
      have e1 : (b 1 : K) * bundleResolution r + ((v % n : Nat) : K) * s = getMin r st 1 + (v : K) * s := by
        unfold getMin; rw [hbr, ← hv']; ring
      unfold Spec.cellCorner
      rw [e0, e1]
    have hw : (![chunkWeight (b 0) (u % n) n, chunkWeight (b 1) (v % n) n] : Fin 2 → K) = interpolationWeights b (Spec.cellCorner r s st u v) (bundleResolutionInv r) := by
      rw [← hpos]
      have hinv : bundleResolutionInv r = 1 / ((n : K) * s) := by rw [← hbr]; rfl
      have ew : ∀ (x : Int) (k : Nat), ((x : K) * bundleResolution r + (k : K) * s) * bundleResolutionInv r - x = (k : K) / n := by
        intro x k
        rw [hinv, hbr]
        field_simp
        ring
      funext a
      unfold interpolationWeights chunkWeight
      fin_cases a
      · simp only [Fin.zero_eta, Fin.isValue, Matrix.cons_val_zero, ew]
      · simp only [Fin.mk_one, Fin.isValue, Matrix.cons_val_one, Matrix.cons_val_fin_one, ew]
    rw [hpos, hw] at hc
    exact hc
  · intro hbm
    refine h6 u v ?_
    intro hmem
    obtain ⟨e, he, heq⟩ := List.mem_map.1 hmem
    obtain ⟨x, hx, i, j, hi, hj, rfl⟩ := (mem_rasterWrites ..).1 he
    simp only [Prod.mk.injEq] at heq
    rw [hcs] at hi hj heq
    have h0 := (chunk_unique hi (Nat.mod_lt u hn) (heq.1.trans hum.symm)).1
    have h1 := (chunk_unique hj (Nat.mod_lt v hn) (heq.2.trans hvm.symm)).1
    refine hbm (List.mem_map.2 ⟨x, hx, funext fun a => ?_⟩)
    fin_cases a <;> simp <;> omega

theorem sampleWith_of_mem {k : Kind 2} {exp : D → Bool} {st : St k.backend D} (hR : MapReachable k exp st) {b : Idx 2} {bd : Bundle} (h : (b, bd) ∈ k.backend.traverse st.bundles) (w : Nat → K) (g : D → K) :
    sampleWith k.dyn w g b st = some (evaluate w g bd st) := by
  have hbm : b ∈ st.bundleIndices := List.mem_map.2 ⟨_, h, rfl⟩
  have hlook : k.backend.look st.bundles b = some bd := (k.lawful.mem_traverse _ hR.spec.1.inv.bstore _ _).1 h
  have hok : k.backend.ok st.bundles b = true := by
    by_contra hno
    unfold Backend.look at hlook
    rw [if_neg hno] at hlook
    cases hlook
  have hget : k.backend.get st.bundles b = some bd := by
    unfold Backend.look at hlook
    rwa [if_pos hok] at hlook
  unfold sampleWith
  rw [if_pos (hR.valid b hbm), if_pos hok, hget]

/-- **C42** (exactness). When the sampling resolution divides the bundle resolution `r / 2`, the target has one cell per sampling step of the bounding box, every cell whose corner is in an allocated bundle holds the value of sampling
the map at that corner (plain or bilinear), and every other cell holds the default value. -/
theorem C42_cells (k : Kind 2) (exp : D → Bool) (st : St k.backend D) (hR : MapReachable k exp st) (hne : st.bundleIndices ≠ [])
    (hfit : ∀ size lo, k = .static size lo → ∀ a, 2 * size a ≤ 2147483647) (r s : K) (hs : 0 < s) (n : Nat) (hn : 0 < n) (hdiv : r / 2 = (n : K) * s)
    (dflt : K) (bil : Bool) (f : D → Pt K 2 → K) :
    ∃ G, toProb r s dflt bil f st = some G ∧ (G.width : Int) = (st.maxB 0 - st.minB 0 + 1) * n ∧ (G.height : Int) = (st.maxB 1 - st.minB 1 + 1) * n ∧
      ∀ u v b, u < G.width → v < G.height → Spec.InBundle r b (Spec.cellCorner r s st u v) →
        (b ∈ st.bundleIndices → (if bil then sampleBilinear r k.dyn f (Spec.cellCorner r s st u v) b st else sampleNN k.dyn f (Spec.cellCorner r s st u v) b st) = some (G.cells u v)) ∧
        (b ∉ st.bundleIndices → G.cells u v = dflt) := by
  obtain ⟨G, h1, h2, h3, h4⟩ := raster_exact k exp st hR hne hfit r s hs n hn hdiv dflt (probValue bil f st)
  refine ⟨G, h1, h2, h3, fun u v b hu hv hb => ⟨?_, (h4 u v b hu hv hb).2⟩⟩
  intro hbm
  obtain ⟨⟨b', bd⟩, he, heb⟩ := List.mem_map.1 hbm
  simp only at heb
  subst heb
  rw [(h4 u v b' hu hv hb).1 bd he]
  unfold sampleBilinear sampleNN probValue
  rw [sampleWith_of_mem hR he, sampleWith_of_mem hR he]
  cases bil <;> rfl

/-- **C58.** Under the same conditions, a cell of the binary grid is occupied exactly when its corner is in an allocated bundle and the value of sampling the map there is at least the threshold. -/
theorem C58_binary (k : Kind 2) (exp : D → Bool) (st : St k.backend D) (hR : MapReachable k exp st) (hne : st.bundleIndices ≠ [])
    (hfit : ∀ size lo, k = .static size lo → ∀ a, 2 * size a ≤ 2147483647) (r s : K) (hs : 0 < s) (n : Nat) (hn : 0 < n) (hdiv : r / 2 = (n : K) * s)
    (threshold : K) (f : D → Pt K 2 → K) :
    ∃ G, toBinary r s threshold f st = some G ∧ (G.width : Int) = (st.maxB 0 - st.minB 0 + 1) * n ∧ (G.height : Int) = (st.maxB 1 - st.minB 1 + 1) * n ∧
      ∀ u v b, u < G.width → v < G.height → Spec.InBundle r b (Spec.cellCorner r s st u v) →
        (G.cells u v = true ↔ b ∈ st.bundleIndices ∧ ∃ x, sampleNN k.dyn f (Spec.cellCorner r s st u v) b st = some x ∧ threshold ≤ x) := by
  obtain ⟨G, h1, h2, h3, h4⟩ := raster_exact k exp st hR hne hfit r s hs n hn hdiv false (fun b p w => decide (threshold ≤ probValue false f st b p w))
  refine ⟨G, h1, h2, h3, fun u v b hu hv hb => ?_⟩
  by_cases hbm : b ∈ st.bundleIndices
  · obtain ⟨⟨b', bd⟩, he, heb⟩ := List.mem_map.1 hbm
    simp only at heb
    subst heb
    rw [(h4 u v b' hu hv hb).1 bd he, decide_eq_true_iff]
    unfold sampleNN probValue
    rw [sampleWith_of_mem hR he]
    exact ⟨fun h => ⟨hbm, _, rfl, h⟩, by rintro ⟨_, x, hx, h⟩; cases hx; exact h⟩
  · rw [(h4 u v b hu hv hb).2 hbm]
    exact ⟨fun h => absurd h (by decide), fun h => absurd h.1 hbm⟩

/-- **C56** (partial). For every sampling resolution `s` with `n = ⌊r / (2 s)⌋`: the cell written for offset `(i, j)` of bundle `b` holds the value sampled in `b` at the corner of the cell plus `(b - min) * (r / 2 - n * s)`. -/
theorem C56_displacement_partial (k : Kind 2) (exp : D → Bool) (st : St k.backend D) (hR : MapReachable k exp st) (hne : st.bundleIndices ≠ [])
    (hfit : ∀ size lo, k = .static size lo → ∀ a, 2 * size a ≤ 2147483647) (r s : K) (hr : 0 < r) (hs : 0 < s) (n : Nat) (hn : (n : Int) = ⌊r / 2 / s⌋) (dflt : K) (f : D → Pt K 2 → K) :
    ∃ G, toProb r s dflt false f st = some G ∧ ∀ b ∈ st.bundleIndices, ∀ i j u v : Nat, i < n → j < n → (u : Int) = (b 0 - st.minB 0) * n + i → (v : Int) = (b 1 - st.minB 1) * n + j →
      u < G.width ∧ v < G.height ∧
      sampleNN k.dyn f (fun a => Spec.cellCorner r s st u v a + ((b a - st.minB a : Int) : K) * (r / 2 - (n : K) * s)) b st = some (G.cells u v) := by
  obtain ⟨G, h1, h2, h3, h4, h5, h6⟩ := C42_safe k exp st hR hne hfit r s hr hs dflt (probValue false f st)
  refine ⟨G, h1, ?_⟩
  have hbr : bundleResolution r = r / 2 := by unfold bundleResolution; ring
  have hcs : chunkStep r s = n := by unfold chunkStep; rw [hbr, ← hn, Int.toNat_natCast]
  intro b hb i j u v hi hj hu hv
  obtain ⟨⟨b', bd⟩, he, heb⟩ := List.mem_map.1 hb
  simp only at heb
  subst heb
  have hmem := (mem_rasterWrites r s (probValue false f st) st _).2 ⟨(b', bd), he, i, j, by rw [hcs]; exact hi, by rw [hcs]; exact hj, rfl⟩
  have hc := (h5 _ hmem).1
  simp only [hcs] at hc
  rw [← hu, ← hv, Int.toNat_natCast, Int.toNat_natCast] at hc
  have hbd := raster_bounds hR hne hfit
  obtain ⟨w, hw, hw', hwn⟩ := rasterExtent_eq hr hs st 0 (hbd 0).1 (hbd 0).2.1
  obtain ⟨h, hh, hh', hhn⟩ := rasterExtent_eq hr hs st 1 (hbd 1).1 (hbd 1).2.1
  rw [hcs] at hwn hhn
  have b0 := (hbd 0).2.2 _ hb
  have b1 := (hbd 1).2.2 _ hb
  have e0 := chunk_bound (x := b' 0 - st.minB 0) (y := st.maxB 0 - st.minB 0) (by omega) (by omega) hi hwn
  have e1 := chunk_bound (x := b' 1 - st.minB 1) (y := st.maxB 1 - st.minB 1) (by omega) (by omega) hj hhn
  rw [← hu] at e0
  rw [← hv] at e1
  rw [← hw'] at h3
  rw [← hh'] at h4
  refine ⟨by omega, by omega, ?_⟩
  unfold sampleNN
  rw [sampleWith_of_mem hR he, hc]
  unfold probValue
  have hpos : (fun a => Spec.cellCorner r s st u v a + ((b' a - st.minB a : Int) : K) * (r / 2 - (n : K) * s)) =
      (![(b' 0 : K) * bundleResolution r + (i : K) * s, (b' 1 : K) * bundleResolution r + (j : K) * s] : Pt K 2) := by
    have hu' := congrArg (Int.cast : Int → K) hu
    have hv' := congrArg (Int.cast : Int → K) hv
    push_cast at hu' hv'
    funext a
    unfold Spec.cellCorner getMin
    rw [hbr]
    fin_cases a
    · simp only [Fin.zero_eta, Fin.isValue, Matrix.cons_val_zero, hu']; push_cast; ring
    · simp only [Fin.mk_one, Fin.isValue, Matrix.cons_val_one, Matrix.cons_val_fin_one, hv']; push_cast; ring
  rw [hpos]
  rfl

/-- The sample map of C10 (resolution 1, five points) is reachable, and the bundles of its points are allocated. -/
theorem sample_bundles (gb : Nat → Nat) (gb' : Nat) : ∃ st, gridRun sampleGeo true (fun _ => true) sampleOps ((Kind.dynamic gb gb').init (Multiset (Pt ℚ 2))) = some st ∧
    MapReachable (.dynamic gb gb') (fun _ => true) st ∧ ![0, 0] ∈ st.bundleIndices ∧ ![-1, 5] ∈ st.bundleIndices := by
  obtain ⟨st, h⟩ := sample_runs gb gb' (fun _ => true)
  have hR : MapReachable (.dynamic gb gb') (fun _ => true) st := grid_reachable sampleGeo (.dynamic gb gb') _ _ _ st .init h
  have h4 := (gridRun_spec (octreeLawful 2) sampleGeo true _ sampleOps _ st (Kind.init_rinv (.dynamic gb gb')) h).2.2.2
  have key : ∀ p ∈ ([![-3/10, 13/5], ![1/5, 1/5]] : List (Pt ℚ 2)), toBundleIndex 1 p ∈ st.bundleIndices := by
    intro p hp
    have := h4 p (by
      simp only [List.mem_cons, List.not_mem_nil, or_false] at hp
      rcases hp with rfl | rfl <;> simp [accOps, accList, sampleOps, sampleGeo, Abs.valid])
    rw [mem_allocated_iff] at this
    exact (mem_bundleIndices (octreeLawful 2) st hR.spec.1.inv _).2 this
  have e1 : toBundleIndex (1 : ℚ) ![1/5, 1/5] = ![0, 0] := by
    funext a; fin_cases a <;> norm_num [toBundleIndex, bundleResolutionInv, bundleResolution]
  have e2 : toBundleIndex (1 : ℚ) ![-3/10, 13/5] = ![-1, 5] := by
    funext a; fin_cases a <;> norm_num [toBundleIndex, bundleResolutionInv, bundleResolution]
  refine ⟨st, h, hR, ?_, ?_⟩
  · rw [← e1]; exact key _ (by simp)
  · rw [← e2]; exact key _ (by simp)

/-- a function of the position only is sampled without error, resp. is 0 -/
theorem sampleNN_pos {k : Kind 2} {exp : D → Bool} {st : St k.backend D} (hR : MapReachable k exp st) (f : Pt K 2 → K) (p : Pt K 2) (b : Idx 2) (x : K) (h : sampleNN k.dyn (fun _ => f) p b st = some x) :
    x = f p ∨ (x = 0 ∧ b ∉ st.bundleIndices) := by
  obtain ⟨h1, h2⟩ := (sampleWith_spec k.lawful k.dyn (fun _ => divCount K 2) (fun _ => f p) b st hR.spec.1).1 x h
  by_cases hb : st.valid k.dyn b = true ∧ b ∈ st.abs.allocated
  · left
    rw [h1 hb, Finset.sum_const, Finset.card_range, divCount_eq]
    simp only [nsmul_eq_mul]
    push_cast
    ring
  · right
    refine ⟨h2 hb, fun hm => hb ⟨hR.valid b hm, ?_⟩⟩
    exact (mem_allocated_iff st b).2 ((mem_bundleIndices k.lawful st hR.spec.1.inv b).1 hm)

/-- **C56 refuted.** On the sample map of resolution 1, with the sampling resolution 1/3: a written cell of the target holds a value that sampling the map at the corner of the cell does not yield in any bundle. -/
theorem C56_position_refuted (gb : Nat → Nat) (gb' : Nat) : ∃ (st : St (Kind.dynamic (d := 2) gb gb').backend (Multiset (Pt ℚ 2))) (f : Multiset (Pt ℚ 2) → Pt ℚ 2 → ℚ) (G : Grid ℚ) (u v : Nat),
    MapReachable (.dynamic gb gb') (fun _ => true) st ∧ toProb 1 (1/3) 0 false f st = some G ∧ u < G.width ∧ v < G.height ∧
    ∀ b, sampleNN true f (Spec.cellCorner 1 (1/3) st u v) b st ≠ some (G.cells u v) := by
  obtain ⟨st, h, hR, hb0, hb1⟩ := sample_bundles gb gb'
  have hne := List.ne_nil_of_mem hb0
  have hfit : ∀ size lo, Kind.dynamic (d := 2) gb gb' = .static size lo → ∀ a, 2 * size a ≤ 2147483647 := by intro _ _ h; cases h
  have hbd := raster_bounds hR hne hfit
  have m0 := ((hbd 0).2.2 _ hb0).1
  have m0' := ((hbd 0).2.2 _ hb1).1
  have m1 := ((hbd 1).2.2 _ hb0).1
  simp only [Fin.isValue, Matrix.cons_val_zero, Matrix.cons_val_one, Matrix.cons_val_fin_one] at m0 m0' m1
  obtain ⟨G, hG, hc⟩ := C56_displacement_partial (.dynamic gb gb') _ st hR hne hfit (1 : ℚ) (1/3) (by norm_num) (by norm_num) 1 (by norm_num) 0 (fun _ p => p 0 + 1000)
  obtain ⟨hu, hv, hx⟩ := hc _ hb0 0 0 (-st.minB 0).toNat (-st.minB 1).toNat (by omega) (by omega)
    (by rw [Int.toNat_of_nonneg (by omega)]; simp) (by rw [Int.toNat_of_nonneg (by omega)]; simp)
  refine ⟨st, fun _ p => p 0 + 1000, G, _, _, hR, hG, hu, hv, ?_⟩
  have hcorner : Spec.cellCorner (1 : ℚ) (1/3) st (-st.minB 0).toNat (-st.minB 1).toNat 0 = (st.minB 0 : ℚ) / 6 := by
    unfold Spec.cellCorner getMin bundleResolution
    have : (((-st.minB 0).toNat : Nat) : ℚ) = -(st.minB 0 : ℚ) := by
      rw [← Int.cast_natCast, Int.toNat_of_nonneg (by omega)]; push_cast; rfl
    simp only [Fin.isValue, Matrix.cons_val_zero, this]
    ring
  have hcell : G.cells (-st.minB 0).toNat (-st.minB 1).toNat = 1000 := by
    rcases sampleNN_pos hR (fun p => p 0 + 1000) _ _ _ hx with h | h
    · rw [h]
      simp only [hcorner, Fin.isValue, Matrix.cons_val_zero]
      push_cast
      ring
    · exact absurd hb0 h.2
  intro b hb
  rcases sampleNN_pos hR (fun p => p 0 + 1000) _ _ _ hb with h | h
  · rw [hcell, hcorner] at h
    have : (st.minB 0 : ℚ) ≤ -1 := by exact_mod_cast m0'
    linarith
  · rw [hcell] at h; norm_num at h

/-- Non-vacuity for C42 and C58: the sample map with the sampling resolution 1/4. -/
example : ∃ (st : St (Kind.dynamic (d := 2) 0 0).backend (Multiset (Pt ℚ 2))) (G : Grid ℚ), MapReachable (.dynamic 0 0) (fun _ => true) st ∧ st.bundleIndices ≠ [] ∧
    toProb 1 (1/4) 0 true (fun s _ => (s.card : ℚ)) st = some G ∧ 2 ≤ G.width ∧ ((1 : ℚ) / 2 = ((2 : Nat) : ℚ) * (1/4)) := by
  obtain ⟨st, h, hR, hb0, hb1⟩ := sample_bundles 0 0
  have hne := List.ne_nil_of_mem hb0
  have hfit : ∀ size lo, Kind.dynamic (d := 2) 0 0 = .static size lo → ∀ a, 2 * size a ≤ 2147483647 := by intro _ _ h; cases h
  have hbd := raster_bounds hR hne hfit
  obtain ⟨G, h1, h2, -⟩ := C42_cells (.dynamic 0 0) _ st hR hne hfit (1 : ℚ) (1/4) (by norm_num) 2 (by norm_num) (by norm_num) 0 true (fun s _ => (s.card : ℚ))
  refine ⟨st, G, hR, hne, h1, ?_, by norm_num⟩
  have := (hbd 0).1
  push_cast at h2
  omega

/-! ### C57: the origin of the target -/

/-- **C57** (partial). Let `T` be the transform from map to world coordinates, with `c² + s² = 1`. The target cell `(u, v)`, which lies at `getOrigin() * (u s, v s)` in the world, is the image of the map point at which it was sampled
exactly if `T` does not rotate or the map's minimum is the map's origin. -/
theorem C57_origin_partial {B : Backend 2} (r s : K) (T : Pose2 K) (hT : T.c ^ 2 + T.s ^ 2 = 1) (st : St B D) (u v : Nat) :
    (getOrigin r T st).apply ![(u : K) * s, (v : K) * s] = T.apply (Spec.cellCorner r s st u v) ↔ (T.c = 1 ∧ T.s = 0) ∨ (getMin r st 0 = 0 ∧ getMin r st 1 = 0) := by
  have e : (getOrigin r T st).apply ![(u : K) * s, (v : K) * s] = T.apply (Spec.cellCorner r s st u v) ↔
      (T.c * getMin r st 0 - T.s * getMin r st 1 = getMin r st 0 ∧ T.s * getMin r st 0 + T.c * getMin r st 1 = getMin r st 1) := by
    unfold getOrigin Pose2.apply Spec.cellCorner
    rw [funext_iff, Fin.forall_fin_two]
    simp only [Fin.isValue, Matrix.cons_val_zero, Matrix.cons_val_one, Matrix.cons_val_fin_one]
    constructor
    · rintro ⟨h1, h2⟩; exact ⟨by linear_combination -h1, by linear_combination -h2⟩
    · rintro ⟨h1, h2⟩; exact ⟨by linear_combination -h1, by linear_combination -h2⟩
  rw [e]
  generalize getMin r st 0 = x
  generalize getMin r st 1 = y
  constructor
  · rintro ⟨h1, h2⟩
    by_cases hc : T.c = 1
    · left
      refine ⟨hc, ?_⟩
      rw [hc] at hT
      have : T.s ^ 2 = 0 := by linear_combination hT
      exact pow_eq_zero_iff (two_ne_zero) |>.1 this
    · right
      -- (1 - c) (x^2 + y^2) = 0
      have h3 : (1 - T.c) * (x ^ 2 + y ^ 2) = 0 := by linear_combination -x * h1 - y * h2
      have h4 : x ^ 2 + y ^ 2 = 0 := (mul_eq_zero.1 h3).resolve_left (fun h => hc (by linear_combination -h))
      constructor
      · nlinarith [sq_nonneg x, sq_nonneg y]
      · nlinarith [sq_nonneg x, sq_nonneg y]
  · rintro (⟨h1, h2⟩ | ⟨h1, h2⟩)
    · rw [h1, h2]; constructor <;> ring
    · rw [h1, h2]; constructor <;> ring

/-- **C57 refuted.** On the sample map with an origin rotated by 90 degrees, every cell of the target is reported at a place in the world that is not the place it was sampled at. -/
theorem C57_rotated_refuted (gb : Nat → Nat) (gb' : Nat) : ∃ (st : St (Kind.dynamic (d := 2) gb gb').backend (Multiset (Pt ℚ 2))) (T : Pose2 ℚ),
    MapReachable (.dynamic gb gb') (fun _ => true) st ∧ T.c ^ 2 + T.s ^ 2 = 1 ∧
    ∀ u v : Nat, (getOrigin 1 T st).apply ![(u : ℚ) * (1/4), (v : ℚ) * (1/4)] ≠ T.apply (Spec.cellCorner 1 (1/4) st u v) := by
  obtain ⟨st, h, hR, hb0, hb1⟩ := sample_bundles gb gb'
  have hne := List.ne_nil_of_mem hb0
  have hfit : ∀ size lo, Kind.dynamic (d := 2) gb gb' = .static size lo → ∀ a, 2 * size a ≤ 2147483647 := by intro _ _ h; cases h
  have m0' := ((raster_bounds hR hne hfit 0).2.2 _ hb1).1
  simp only [Fin.isValue, Matrix.cons_val_zero] at m0'
  refine ⟨st, ⟨0, 1, ![0, 0]⟩, hR, by norm_num, ?_⟩
  intro u v he
  rcases (C57_origin_partial 1 (1/4) ⟨0, 1, ![0, 0]⟩ (by norm_num) st u v).1 he with h | h
  · norm_num at h
  · have h1 := h.1
    unfold getMin bundleResolution at h1
    have : (st.minB 0 : ℚ) ≤ -1 := by exact_mod_cast m0'
    linarith

end Ndt
