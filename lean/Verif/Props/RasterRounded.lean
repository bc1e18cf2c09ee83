import Verif.Proofs.RasterRounded
import Verif.Props.Rounding

/-! Property theorem C78: rasterisation when the raster is computed in floating point. -/

namespace Ndt
open St

section
variable {K : Type} [Field K] [LinearOrder K] [IsStrictOrderedRing K] [FloorRing K] {D V : Type} [Inhabited D]

/-! ### C78, the number of cells per bundle -/

/-- **C78** (partial). Let the sampling resolution `σ` divide the bundle edge `ρ / 2` exactly `n` times, and let the map and the conversion be given the floating-point numbers next to `ρ` and `σ`. Then a bundle gets `n` or `n - 1` cells per row, as long
as `n` is below `1 / (5 u)`. Missing: that it gets `n`. -/
theorem C78_step_partial (R : Arith K) (ρ σ : K) (hσ : 0 < σ) (n : Nat) (hn : 0 < n) (hdiv : ρ / 2 = (n : K) * σ) (hh : bundleResolutionR R (R.T.rnd ρ) = R.T.rnd ρ / 2)
    (hlim : 5 * R.T.u * (n : K) < 1) (h31 : n < 2147483648) :
    chunkStepR R (R.T.rnd ρ) (R.T.rnd σ) = some n ∨ chunkStepR R (R.T.rnd ρ) (R.T.rnd σ) = some (n - 1) := by
  have hu := R.T.nonneg
  have hnK : (1 : K) ≤ n := by exact_mod_cast hn
  have hu5 : R.T.u < 1 / 5 := by nlinarith
  have hρ : 0 < ρ := by
    have : 0 < (n : K) * σ := by positivity
    linarith
  obtain ⟨a1, a2⟩ := R.T.sides hρ.le
  obtain ⟨b1, b2⟩ := R.T.sides hσ.le
  have hs : 0 < R.T.rnd σ := lt_of_lt_of_le (mul_pos hσ (by linarith)) b1
  have hr : 0 < R.T.rnd ρ := lt_of_lt_of_le (mul_pos hρ (by linarith)) a1
  have hq : 0 ≤ R.T.rnd ρ / 2 / R.T.rnd σ := by positivity
  obtain ⟨c1, c2⟩ := R.T.sides hq
  have lo : (n : K) * (1 - 2 * R.T.u) ≤ R.T.rnd ρ / 2 / R.T.rnd σ := by
    rw [le_div_iff₀ hs]
    have h1 : (n : K) * (1 - 2 * R.T.u) * R.T.rnd σ ≤ (n : K) * (1 - 2 * R.T.u) * (σ * (1 + R.T.u)) :=
      mul_le_mul_of_nonneg_left b2 (mul_nonneg (by linarith) (by linarith))
    have a1' : (n : K) * σ * (1 - R.T.u) ≤ R.T.rnd ρ / 2 := by
      have e' : (n : K) * σ = ρ / 2 := hdiv.symm
      rw [e']; linarith
    have h3 : 0 ≤ (n : K) * σ * (2 * (R.T.u * R.T.u)) := by positivity
    linarith
  have hi : R.T.rnd ρ / 2 / R.T.rnd σ * (1 - R.T.u) ≤ (n : K) * (1 + R.T.u) := by
    rw [div_mul_eq_mul_div, div_le_iff₀ hs]
    have h1 : (n : K) * (1 + R.T.u) * (σ * (1 - R.T.u)) ≤ (n : K) * (1 + R.T.u) * R.T.rnd σ := mul_le_mul_of_nonneg_left b1 (by positivity)
    have a2' : R.T.rnd ρ / 2 ≤ (n : K) * σ * (1 + R.T.u) := by
      have e' : (n : K) * σ = ρ / 2 := hdiv.symm
      rw [e']; linarith
    have h2 := mul_le_mul_of_nonneg_right a2' (show 0 ≤ 1 - R.T.u by linarith)
    linarith
  have lo' : (n : K) - 1 < R.T.rnd (R.T.rnd ρ / 2 / R.T.rnd σ) := by
    have h1 := mul_le_mul_of_nonneg_right lo (show 0 ≤ 1 - R.T.u by linarith)
    nlinarith [mul_nonneg (show (0 : K) ≤ n by linarith) (mul_nonneg hu hu)]
  have hi' : R.T.rnd (R.T.rnd ρ / 2 / R.T.rnd σ) < (n : K) + 1 := by
    have h1 : R.T.rnd (R.T.rnd ρ / 2 / R.T.rnd σ) * (1 - R.T.u) ≤ (n : K) * (1 + R.T.u) * (1 + R.T.u) := by
      have := mul_le_mul_of_nonneg_right c2 (show 0 ≤ 1 - R.T.u by linarith)
      have := mul_le_mul_of_nonneg_right hi (show 0 ≤ 1 + R.T.u by linarith)
      linarith
    have h2 : (n : K) * (1 + R.T.u) * (1 + R.T.u) < ((n : K) + 1) * (1 - R.T.u) := by nlinarith [mul_nonneg hu hu, mul_nonneg (show (0 : K) ≤ n by linarith) hu]
    exact lt_of_mul_lt_mul_right (h1.trans_lt h2) (by linarith)
  have f1 : (n : Int) - 1 ≤ ⌊R.T.rnd (R.T.rnd ρ / 2 / R.T.rnd σ)⌋ := by rw [Int.le_floor]; push_cast; exact lo'.le
  have f2 : ⌊R.T.rnd (R.T.rnd ρ / 2 / R.T.rnd σ)⌋ < (n : Int) + 1 := by rw [Int.floor_lt]; push_cast; exact hi'
  rw [chunkStepR_eq_some R _ _ hr.le hs, chunkStepR_eq_some R _ _ hr.le hs, hh]
  omega

/-- **C78.** If the floating-point numbers themselves divide (for example powers of two), a bundle gets `n` cells per row. -/
theorem C78_step_exact (R : Arith K) (r s : K) (hs : 0 < s) (n : Nat) (hdiv : r / 2 = (n : K) * s) (hh : bundleResolutionR R r = r / 2) (hn : R.T.rnd (n : K) = n) (h31 : n < 2147483648) :
    chunkStepR R r s = some n := by
  have hr : 0 ≤ r := by
    have : 0 ≤ (n : K) * s := by positivity
    linarith
  rw [chunkStepR_eq_some R r s hr hs, hh, hdiv, mul_div_assoc, div_self hs.ne', mul_one, hn, Int.floor_natCast]
  exact ⟨rfl, by omega⟩

/-! ### C78, the writes -/

/-- **C78** (partial). On every reachable non-empty map with less than `1 / (5 u)` cells per row and column of the target, every write is inside of the target. The cell of offset `(i, j)` in bundle `b` holds the value of `b` at a point that is, up to three
roundings, the corner of the cell plus `(b - min) * (r / 2 - n * s)`; the interpolation weights are those of the offset up to two roundings; and cells that belong to no allocated bundle hold the default. Missing: targets of any size, and that the shift is zero. -/
theorem C78_raster_partial (k : Kind 2) (exp : D → Bool) (st : St k.backend D) (hR : MapReachable k exp st) (hne : st.bundleIndices ≠ [])
    (hfit : ∀ size lo, k = .static size lo → ∀ a, 2 * size a ≤ 2147483647) (R : Arith K) (r s : K) (hr : 0 < r) (hs : 0 < s) (hh : bundleResolutionR R r = r / 2)
    (n : Nat) (hn : chunkStepR R r s = some n) (hlim : ∀ a, 5 * R.T.u * (((st.maxB a - st.minB a + 1 : Int) : K) * (r / 2 / s)) < 1) (dflt : V) (val : Bundle → Pt K 2 → (Fin 2 → K) → V) :
    ∃ G, rasterizeR R r s dflt val st = some G ∧
      (∀ b ∈ st.bundleIndices, ∀ i j u v : Nat, i < n → j < n → (u : Int) = (b 0 - st.minB 0) * n + i → (v : Int) = (b 1 - st.minB 1) * n + j →
        u < G.width ∧ v < G.height ∧ ∃ bd p w, (b, bd) ∈ k.backend.traverse st.bundles ∧ G.cells u v = val bd p w ∧
        ∀ a, |p a - (Spec.cellCorner r s st u v a + ((b a - st.minB a : Int) : K) * (r / 2 - (n : K) * s))| ≤ ((1 + R.T.u) ^ 3 - 1) * (|(b a : K)| * (r / 2) + (![i, j] a : K) * s) ∧
          ((∀ m ≤ n, R.T.rnd (m : K) = m) → |w a - (if b a % 2 = 0 then 1 - (![i, j] a : K) / n else (![i, j] a : K) / n)| ≤ 2 * R.T.u)) ∧
      (∀ u v : Nat, (∀ b ∈ st.bundleIndices, ∀ i j : Nat, i < n → j < n → (u : Int) = (b 0 - st.minB 0) * n + i → (v : Int) ≠ (b 1 - st.minB 1) * n + j) → G.cells u v = dflt) := by
  have hb := raster_bounds hR hne hfit
  obtain ⟨hn1, hn2⟩ := (chunkStepR_eq_some R r s hr.le hs n).1 hn
  rw [hh] at hn1
  have hwn := extentR_le R hr hs hh (by have := (hb 0).1; omega) (hlim 0) hn1
  have hhn := extentR_le R hr hs hh (by have := (hb 1).1; omega) (hlim 1) hn1
  have hnd := rasterWritesR_nodup k.lawful R r s n val st hR.spec.1.inv.bstore
  have hin : ∀ e ∈ rasterWritesR R r s n val st, 0 ≤ e.1 ∧ e.1 < extentR R r s (st.maxB 0 - st.minB 0 + 1) ∧ 0 ≤ e.2.1 ∧ e.2.1 < extentR R r s (st.maxB 1 - st.minB 1 + 1) := by
    intro e he
    obtain ⟨x, hx, i, j, hi, hj, rfl⟩ := (mem_rasterWritesR ..).1 he
    have hxm : x.1 ∈ st.bundleIndices := List.mem_map.2 ⟨x, hx, rfl⟩
    have h0 := (hb 0).2.2 _ hxm
    have h1 := (hb 1).2.2 _ hxm
    have e0 := chunk_bound (x := x.1 0 - st.minB 0) (y := st.maxB 0 - st.minB 0) (by omega) (by omega) hi hwn
    have e1 := chunk_bound (x := x.1 1 - st.minB 1) (y := st.maxB 1 - st.minB 1) (by omega) (by omega) hj hhn
    exact ⟨e0.1, e0.2, e1.1, e1.2⟩
  obtain ⟨G, g1, g2, g3, g4, g5⟩ := Grid.writeAll_spec (rasterWritesR R r s n val st) ⟨extentR R r s (st.maxB 0 - st.minB 0 + 1), extentR R r s (st.maxB 1 - st.minB 1 + 1), fun _ _ => dflt⟩ hin hnd
  refine ⟨G, ?_, ?_, ?_⟩
  · unfold rasterizeR; rw [rasterExtentR_eq R r s st 0 (hb 0).1 (hb 0).2.1, rasterExtentR_eq R r s st 1 (hb 1).1 (hb 1).2.1, hn]; exact g1
  · intro b hbm i j u v hi hj hu hv
    obtain ⟨⟨b', bd⟩, he, heb⟩ := List.mem_map.1 hbm
    simp only at heb
    subst heb
    have hmem := (mem_rasterWritesR R r s n val st _).2 ⟨(b', bd), he, i, j, hi, hj, rfl⟩
    have hc := g4 _ hmem
    have hc' := hin _ hmem
    simp only at hc hc'
    rw [← hu, ← hv, Int.toNat_natCast, Int.toNat_natCast] at hc
    rw [← hu, ← hv] at hc'
    refine ⟨by rw [g2]; exact_mod_cast hc'.2.1, by rw [g3]; exact_mod_cast hc'.2.2.2, bd, _, _, he, hc, ?_⟩
    have hu' := congrArg (Int.cast : Int → K) hu
    have hv' := congrArg (Int.cast : Int → K) hv
    push_cast at hu' hv'
    have hbr : bundleResolution r = r / 2 := by unfold bundleResolution; ring
    intro a
    fin_cases a
    · have e : Spec.cellCorner r s st u v 0 + ((b' 0 - st.minB 0 : Int) : K) * (r / 2 - (n : K) * s) = (b' 0 : K) * (r / 2) + (i : K) * s := by
        unfold Spec.cellCorner getMin
        rw [hbr]
        simp only [Fin.isValue, Matrix.cons_val_zero, hu']; push_cast; ring
      simp only [Fin.zero_eta, Fin.isValue, Matrix.cons_val_zero]
      rw [e]
      exact ⟨samplePosR_err R hr hs hh _ _, chunkWeightR_err R _ hi⟩
    · have e : Spec.cellCorner r s st u v 1 + ((b' 1 - st.minB 1 : Int) : K) * (r / 2 - (n : K) * s) = (b' 1 : K) * (r / 2) + (j : K) * s := by
        unfold Spec.cellCorner getMin
        rw [hbr]
        simp only [Fin.isValue, Matrix.cons_val_one, Matrix.cons_val_fin_one, hv']; push_cast; ring
      simp only [Fin.mk_one, Fin.isValue, Matrix.cons_val_one, Matrix.cons_val_fin_one]
      rw [e]
      exact ⟨samplePosR_err R hr hs hh _ _, chunkWeightR_err R _ hj⟩
  · intro u v huv
    refine g5 u v ?_
    intro hmem
    obtain ⟨e, he, heq⟩ := List.mem_map.1 hmem
    obtain ⟨x, hx, i, j, hi, hj, rfl⟩ := (mem_rasterWritesR ..).1 he
    simp only [Prod.mk.injEq] at heq
    exact huv x.1 (List.mem_map.2 ⟨x, hx, rfl⟩) i j hi hj heq.1.symm heq.2.symm

/-- **C78.** Numbers of cells per bundle below 2^24 resp. 2^53 are exact in `float` resp. `double`. -/
theorem C78_small_integers (t : Nat) (ht : 1 ≤ t) (n : Nat) (hn : n < 2 ^ t) : ∀ m ≤ n, (ieeeArith K t ht).T.rnd (m : K) = m := fun m hm => toBits_small t m (by omega)

/-- **C78.** For `float` resp. `double` this covers targets of three million resp. 10^15 cells per row. -/
theorem C78_sizes (x : K) : (x ≤ 3000000 → 5 * (ieeeArith K 24 (by decide)).T.u * x < 1) ∧ (x ≤ 1000000000000000 → 5 * (ieeeArith K 53 (by decide)).T.u * x < 1) := by
  have e1 : (ieeeArith K 24 (by decide)).T.u = ((2 : K) ^ 24)⁻¹ := rfl
  have e2 : (ieeeArith K 53 (by decide)).T.u = ((2 : K) ^ 53)⁻¹ := rfl
  rw [e1, e2]
  constructor
  · intro h
    have : 5 * ((2 : K) ^ 24)⁻¹ * x ≤ 5 * ((2 : K) ^ 24)⁻¹ * 3000000 := mul_le_mul_of_nonneg_left h (by positivity)
    exact this.trans_lt (by norm_num)
  · intro h
    have : 5 * ((2 : K) ^ 53)⁻¹ * x ≤ 5 * ((2 : K) ^ 53)⁻¹ * 1000000000000000 := mul_le_mul_of_nonneg_left h (by positivity)
    exact this.trans_lt (by norm_num)

end

/-! ### C78, what fails -/

/-- the arithmetic of a map over `double` -/
abbrev double64 : Arith ℚ := ieeeArith ℚ 53 (by decide)

/-- **C78 refuted** (cells per bundle). A map over `double` of resolution 0.6 has bundles of edge 0.3, that is 6 times 0.05, but the conversion with the sampling resolution 0.05 writes 5 cells per row of a bundle; likewise over `float` for the
resolution 0.9 and the sampling resolution 0.15: 2 cells, not 3. -/
theorem C78_step_refuted :
    ((6 / 10 : ℚ) / 2 = (6 : Nat) * (5 / 100) ∧ chunkStepR double64 (double64.T.rnd (6 / 10)) (double64.T.rnd (5 / 100)) = some 5) ∧
    ((9 / 10 : ℚ) / 2 = (3 : Nat) * (15 / 100) ∧ chunkStepR float32 (float32.T.rnd (9 / 10)) (float32.T.rnd (15 / 100)) = some 2) := by
  refine ⟨⟨by norm_num, by decide +kernel⟩, by norm_num, by decide +kernel⟩

/-- a map with two bundles in a row at the indices `a` and `b` -/
def stripOps (a b : Int) (st : St (octreeBackend 2) Unit) : Option (St (octreeBackend 2) Unit) :=
  (St.coreStep true (fun _ => true) (.bundleAt ![a, 0]) st).bind (St.coreStep true (fun _ => true) (.bundleAt ![b, 0]))

theorem strip_reachable {a b : Int} {st : St (octreeBackend 2) Unit} (h : stripOps a b ((Kind.dynamic (d := 2) 0 0).init Unit) = some st) :
    MapReachable (Kind.dynamic (d := 2) 0 0) (fun _ => true) st := by
  obtain ⟨st1, h1, h2⟩ := Option.bind_eq_some_iff.1 h
  exact .core _ _ _ (.core _ _ _ .init h1) h2

def strip20 : St (octreeBackend 2) Unit := (stripOps 0 20 ((Kind.dynamic (d := 2) 0 0).init Unit)).get (by decide +kernel)
theorem strip20_reachable : MapReachable (Kind.dynamic (d := 2) 0 0) (fun _ => true) strip20 := strip_reachable (Option.some_get _).symm
theorem strip20_bounds : (strip20.minB 0 = 0 ∧ strip20.maxB 0 = 20) ∧ strip20.minB 1 = 0 ∧ strip20.maxB 1 = 0 := by decide +kernel
theorem strip20_bundles : strip20.bundleIndices = [![0, 0], ![20, 0]] := by decide +kernel

def strip41675 : St (octreeBackend 2) Unit := (stripOps (-20837) 20837 ((Kind.dynamic (d := 2) 0 0).init Unit)).get (by decide +kernel)
theorem strip41675_reachable : MapReachable (Kind.dynamic (d := 2) 0 0) (fun _ => true) strip41675 := strip_reachable (Option.some_get _).symm

def strip20Raster : Grid (Pt ℚ 2) := (rasterizeR double64 (double64.T.rnd (6 / 10)) (double64.T.rnd (5 / 100)) (fun _ => 0) (fun _ p _ => p) strip20).get (by decide +kernel)

/-- **C78 refuted** (places). In a map over `double` of resolution 0.6, sampled with 0.05, the first cell of the bundle that starts at 6.0 is the one at 5.0: a cell of the target holds the value of a point 19 cells away from its place. The sampled value is the
position itself. -/
theorem C78_position_refuted : ∃ (G : Grid (Pt ℚ 2)) (u v : Nat), MapReachable (Kind.dynamic (d := 2) 0 0) (fun _ => true) strip20 ∧
    rasterizeR double64 (double64.T.rnd (6 / 10)) (double64.T.rnd (5 / 100)) (fun _ => 0) (fun _ p _ => p) strip20 = some G ∧ u < G.width ∧ v < G.height ∧
    Spec.cellCorner (double64.T.rnd (6 / 10)) (double64.T.rnd (5 / 100)) strip20 u v 0 + 19 * (5 / 100) < G.cells u v 0 := by
  refine ⟨strip20Raster, 100, 0, strip20_reachable, (Option.some_get _).symm, by decide +kernel, by decide +kernel, by decide +kernel⟩

/-- a sampling resolution and a resolution over `float` -/
def fineRes : ℚ := 13891535 / 33554432
def fineStep : ℚ := 8935259 / 8589934592

/-- **C78 refuted** (writes). Over `float`, on a map of resolution 0.414 and 41675 bundles per row, sampled with 0.00104 (199 cells per bundle), the target is one cell too narrow: the conversion writes outside of it. -/
theorem C78_safe_refuted : MapReachable (Kind.dynamic (d := 2) 0 0) (fun _ => true) strip41675 ∧ float32.T.rnd fineRes = fineRes ∧ float32.T.rnd fineStep = fineStep ∧ bundleResolutionR float32 fineRes = fineRes / 2 ∧
    chunkStepR float32 fineRes fineStep = some 199 ∧ ∀ (V : Type) (dflt : V) (val : Bundle → Pt ℚ 2 → (Fin 2 → ℚ) → V), rasterizeR float32 fineRes fineStep dflt val strip41675 = none := by
  have hcs : chunkStepR float32 fineRes fineStep = some 199 := by decide +kernel
  refine ⟨strip41675_reachable, by decide +kernel, by decide +kernel, by decide +kernel, hcs, ?_⟩
  intro V dflt val
  have hw : rasterExtentR float32 fineRes fineStep strip41675 0 = some 8293324 := by decide +kernel
  have hh : (rasterExtentR float32 fineRes fineStep strip41675 1).isSome = true := by decide +kernel
  obtain ⟨h, hh⟩ := Option.isSome_iff_exists.1 hh
  unfold rasterizeR
  rw [hw, hh, hcs]
  simp only
  have hbig : ∀ (l : List (Int × Int × V)) (g : Grid V), (∃ e ∈ l, (g.width : Int) ≤ e.1) → Grid.writeAll l g = none := by
    intro l
    induction l with
    | nil => rintro g ⟨e, he, _⟩; cases he
    | cons e l ih =>
      rintro g ⟨e', he', hw⟩
      obtain ⟨u, v, x⟩ := e
      unfold Grid.writeAll
      by_cases hc : 0 ≤ u ∧ u < g.width ∧ 0 ≤ v ∧ v < g.height
      · have hwr : g.write u v x = some { g with cells := fun i j => if (i : Int) = u ∧ (j : Int) = v then x else g.cells i j } := by unfold Grid.write; rw [if_pos hc]
        rw [hwr, Option.bind_some]
        refine ih _ ⟨e', ?_, hw⟩
        rcases List.mem_cons.1 he' with rfl | h
        · simp only at hw; omega
        · exact h
      · have hwr : g.write u v x = none := by unfold Grid.write; rw [if_neg hc]
        rw [hwr]; rfl
  refine hbig _ _ ?_
  have hb : ![20837, 0] ∈ strip41675.bundleIndices := by decide +kernel
  obtain ⟨e, he, heb⟩ := List.mem_map.1 hb
  have hmin : strip41675.minB 0 = -20837 := by decide +kernel
  refine ⟨_, (mem_rasterWritesR ..).2 ⟨e, he, 198, 198, by decide, by decide, rfl⟩, ?_⟩
  simp only [heb, hmin]
  decide

/-! ### The hypotheses are met -/

/-- the map of two bundles, resolution 0.6, sampling 0.05, over `double` -/
example : (∃ G, rasterizeR double64 (double64.T.rnd (6 / 10)) (double64.T.rnd (5 / 100)) (0 : ℚ) (fun _ p _ => p 0) strip20 = some G) := by
  have h1 : 0 < double64.T.rnd (6 / 10) ∧ 0 < double64.T.rnd (5 / 100) ∧ bundleResolutionR double64 (double64.T.rnd (6 / 10)) = double64.T.rnd (6 / 10) / 2 := by decide +kernel
  obtain ⟨G, hG, -⟩ := C78_raster_partial (Kind.dynamic (d := 2) 0 0) (fun _ => true) strip20 strip20_reachable (by rw [strip20_bundles]; simp) (by intro _ _ h; cases h) double64 (double64.T.rnd (6 / 10)) (double64.T.rnd (5 / 100))
    h1.1 h1.2.1 h1.2.2 5 (by decide +kernel) (by decide +kernel) (0 : ℚ) (fun _ p _ => p 0)
  exact ⟨G, hG⟩

/-- resolution 0.5 and sampling 0.025 over `double`: 10 cells; the condition on `n` holds -/
example : chunkStepR double64 (double64.T.rnd (1 / 2)) (double64.T.rnd (25 / 1000)) = some 10 ∧ (1 / 2 : ℚ) / 2 = (10 : Nat) * (25 / 1000) ∧ 5 * double64.T.u * (10 : Nat) < 1 ∧
    bundleResolutionR double64 (double64.T.rnd (1 / 2)) = double64.T.rnd (1 / 2) / 2 := by decide +kernel

/-- resolution 1 and sampling 1/16 divide exactly -/
example : chunkStepR float32 1 (1 / 16) = some 8 := C78_step_exact float32 1 (1 / 16) (by norm_num) 8 (by norm_num) (by decide +kernel) (by decide +kernel) (by decide)

end Ndt
