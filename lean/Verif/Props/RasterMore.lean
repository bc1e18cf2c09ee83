import Verif.Props.Raster
import Verif.Proofs.Mono
import Mathlib.Analysis.Complex.Exponential
import Mathlib.Tactic.NormNum

/-! Property theorems C43, C53, C59: values of rasterised maps, rasterisation of single-resolution maps and of empty maps. -/

namespace Ndt
open St
variable {K : Type} [Field K] [LinearOrder K] [IsStrictOrderedRing K] [FloorRing K] {D V : Type}

/-! ### Values of NDT maps -/

theorem convex_mem (w v : Nat → K) (n : Nat) (hw : ∀ c, 0 ≤ w c) (hs : ∑ c ∈ Finset.range n, w c = 1) (hv : ∀ c, 0 ≤ v c ∧ v c ≤ 1) :
    0 ≤ ∑ c ∈ Finset.range n, w c * v c ∧ ∑ c ∈ Finset.range n, w c * v c ≤ 1 := by
  refine ⟨Finset.sum_nonneg fun c _ => mul_nonneg (hw c) (hv c).1, ?_⟩
  rw [← hs]
  exact Finset.sum_le_sum fun c _ => mul_le_of_le_one_right (hw c) (hv c).2

theorem probValue_mem {B : Backend 2} (bil : Bool) (f : D → Pt K 2 → K) (hf : ∀ x q, 0 ≤ f x q ∧ f x q ≤ 1) (st : St B D) (b : Bundle) (p : Pt K 2) (w : Fin 2 → K)
    (hw : ∀ a, 0 ≤ w a ∧ w a ≤ 1) : 0 ≤ probValue bil f st b p w ∧ probValue bil f st b p w ≤ 1 := by
  unfold probValue evaluate
  rw [foldl_add_eq, zero_add, sum_range_list, twoPow_eq]
  refine convex_mem _ _ _ ?_ ?_ ?_
  · intro c
    cases bil
    · simp only [Bool.false_eq_true, if_false]; rw [divCount_eq]; positivity
    · simp only [if_true]
      rw [interpolationWeight_eq]
      refine Finset.prod_nonneg fun i _ => ?_
      have := hw i
      split
      · exact this.1
      · linarith [this.2]
  · cases bil
    · simp only [Bool.false_eq_true, if_false]
      rw [divCount_eq, Finset.sum_const, Finset.card_range, nsmul_eq_mul]
      push_cast
      norm_num
    · simp only [if_true]
      exact sum_interpolationWeight w
  · intro c
    split
    · exact ⟨le_refl _, zero_le_one⟩
    · exact hf _ _

theorem chunkWeight_mem (b : Int) (k n : Nat) (h : k < n) : 0 ≤ chunkWeight (K := K) b k n ∧ chunkWeight (K := K) b k n ≤ 1 := by
  have hn : (0 : K) < n := by exact_mod_cast (by omega : 0 < n)
  have hk : (0 : K) ≤ k := by positivity
  have h1 : (k : K) / n ≤ 1 := by rw [div_le_one hn]; exact_mod_cast h.le
  have h0 : (0 : K) ≤ (k : K) / n := div_nonneg hk hn.le
  unfold chunkWeight
  split
  · exact ⟨h0, h1⟩
  · constructor <;> linarith

/-- **C43** (partial, NDT maps). If the values of the distributions and the default value are in `[0, 1]`, then so is every cell of the probability grid, for every sampling resolution, with and without interpolation. -/
theorem C43_ndt_partial [Inhabited D] (k : Kind 2) (exp : D → Bool) (st : St k.backend D) (hR : MapReachable k exp st) (hne : st.bundleIndices ≠ [])
    (hfit : ∀ size lo, k = .static size lo → ∀ a, 2 * size a ≤ 2147483647) (r s : K) (hr : 0 < r) (hs : 0 < s) (dflt : K) (hdf : 0 ≤ dflt ∧ dflt ≤ 1) (bil : Bool)
    (f : D → Pt K 2 → K) (hf : ∀ x q, 0 ≤ f x q ∧ f x q ≤ 1) :
    ∃ G, toProb r s dflt bil f st = some G ∧ ∀ u v, 0 ≤ G.cells u v ∧ G.cells u v ≤ 1 := by
  obtain ⟨G, h1, h2, h3, h4, h5, h6⟩ := C42_safe k exp st hR hne hfit r s hr hs dflt (probValue bil f st)
  refine ⟨G, h1, fun u v => ?_⟩
  by_cases hm : ((u : Int), (v : Int)) ∈ (rasterWrites r s (probValue bil f st) st).map (fun e => (e.1, e.2.1))
  · obtain ⟨e, he, hk⟩ := List.mem_map.1 hm
    have hc := (h5 e he).1
    simp only [Prod.mk.injEq] at hk
    rw [hk.1, hk.2, Int.toNat_natCast, Int.toNat_natCast] at hc
    rw [hc]
    obtain ⟨x, hx, i, j, hi, hj, rfl⟩ := (mem_rasterWrites ..).1 he
    refine probValue_mem bil f hf st _ _ _ ?_
    intro a
    fin_cases a
    · exact chunkWeight_mem _ _ _ hi
    · exact chunkWeight_mem _ _ _ hj
  · rw [h6 u v hm]; exact hdf

/-- **C43 refuted.** The conversion of NDT maps does not sanitise its values: NaN values of the distributions end up in the target. -/
theorem C43_nan_refuted (gb : Nat → Nat) (gb' : Nat) : ∃ (st : St (Kind.dynamic (d := 2) gb gb').backend (Multiset (Pt ℚ 2))) (f : Multiset (Pt ℚ 2) → Pt ℚ 2 → Fl ℚ) (G : Grid (Fl ℚ)) (u v : Nat),
    MapReachable (.dynamic gb gb') (fun _ => true) st ∧ (∀ x p, f x p = .nan ∨ ∃ q, 0 ≤ q ∧ f x p = .fin q) ∧ toProbFl 1 (1/4) 0 f st = some G ∧ u < G.width ∧ v < G.height ∧ G.cells u v = .nan := by
  obtain ⟨st, h, hR, hb0, hb1⟩ := sample_bundles gb gb'
  have hne := List.ne_nil_of_mem hb0
  have hfit : ∀ size lo, Kind.dynamic (d := 2) gb gb' = .static size lo → ∀ a, 2 * size a ≤ 2147483647 := by intro _ _ h; cases h
  have hbd := raster_bounds hR hne hfit
  have m0 := (hbd 0).2.2 _ hb0
  have m1 := (hbd 1).2.2 _ hb0
  simp only [Fin.isValue, Matrix.cons_val_zero, Matrix.cons_val_one, Matrix.cons_val_fin_one] at m0 m1
  obtain ⟨G, h1, h2, h3, h4⟩ := raster_exact (.dynamic gb gb') _ st hR hne hfit (1 : ℚ) (1/4) (by norm_num) 2 (by norm_num) (by norm_num) (0 : Fl ℚ)
    (fun b p _ => evaluateFl (fun _ => .fin (divCount ℚ 2)) (fun x => (fun _ _ => Fl.nan : Multiset (Pt ℚ 2) → Pt ℚ 2 → Fl ℚ) x p) b st)
  obtain ⟨⟨b', bd⟩, he, heb⟩ := List.mem_map.1 hb0
  simp only at heb
  subst heb
  have hI : RInv (octreeLawful 2) true st := hR.spec.1
  have hlook : st.bundle ![0, 0] = some bd := ((octreeLawful 2).mem_traverse _ hI.inv.bstore _ _).1 he
  have hu : ((-st.minB 0 * 2).toNat : Int) = -st.minB 0 * 2 := Int.toNat_of_nonneg (by omega)
  have hv : ((-st.minB 1 * 2).toNat : Int) = -st.minB 1 * 2 := Int.toNat_of_nonneg (by omega)
  have hu' : (-st.minB 0 * 2).toNat < G.width := by push_cast at h2; omega
  have hv' : (-st.minB 1 * 2).toNat < G.height := by push_cast at h3; omega
  refine ⟨st, fun _ _ => .nan, G, (-st.minB 0 * 2).toNat, (-st.minB 1 * 2).toNat, hR, fun _ _ => .inl rfl, h1, hu', hv', ?_⟩
  have hcorner : Spec.InBundle (1 : ℚ) ![0, 0] (Spec.cellCorner 1 (1/4) st (-st.minB 0 * 2).toNat (-st.minB 1 * 2).toNat) := by
    have q0 : (((-st.minB 0 * 2).toNat : Nat) : ℚ) = -(st.minB 0 : ℚ) * 2 := by
      rw [← Int.cast_natCast, hu]; push_cast; rfl
    have q1 : (((-st.minB 1 * 2).toNat : Nat) : ℚ) = -(st.minB 1 : ℚ) * 2 := by
      rw [← Int.cast_natCast, hv]; push_cast; rfl
    intro a
    unfold Spec.cellCorner getMin bundleResolution
    fin_cases a
    · simp only [Fin.zero_eta, Fin.isValue, Matrix.cons_val_zero, q0]; push_cast; constructor <;> linarith
    · simp only [Fin.mk_one, Fin.isValue, Matrix.cons_val_one, Matrix.cons_val_fin_one, q1]; push_cast; constructor <;> linarith
  rw [(h4 _ _ _ hu' hv' hcorner).1 bd he]
  have hd : ∀ c, c < 4 → ∃ a, bd.data c = some a := fun c hc => by
    obtain ⟨a, ha, _⟩ := hI.inv.complete _ _ hlook c (by simpa using hc)
    exact ⟨a, ha⟩
  obtain ⟨a0, e0⟩ := hd 0 (by omega)
  obtain ⟨a1, e1⟩ := hd 1 (by omega)
  obtain ⟨a2, e2⟩ := hd 2 (by omega)
  obtain ⟨a3, e3⟩ := hd 3 (by omega)
  unfold evaluateFl
  rw [show List.range (twoPow 2) = [0, 1, 2, 3] from rfl]
  simp only [List.foldl_cons, List.foldl_nil, e0, e1, e2, e3]
  rfl

/-- **C43** (partial). If the densities at a point are finite, the value written for it in floating point is the mean of C42 and C43, without NaN: the two models of the loop over the bins agree. -/
theorem C43_finite_partial {K : Type} [Field K] [LinearOrder K] {B : Backend 2} {D : Type} (w : Nat → K) (f : D → Fl K) (g : D → K) (b : Bundle) (st : St B D)
    (h : ∀ c, c < 4 → ∀ a, b.data c = some a → f (st.heap a) = .fin (g (st.heap a))) :
    evaluateFl (fun i => .fin (w i)) f b st = .fin (St.evaluate w g b st) := by
  have hterm : ∀ c, c < 4 → (match b.data c with | none => (0 : Fl K) | some a => f (st.heap a)) = .fin (match b.data c with | none => 0 | some a => g (st.heap a)) := by
    intro c hc
    cases hb : b.data c with
    | none => rfl
    | some a => exact h c hc a hb
  have key : ∀ (l : List Nat), (∀ c ∈ l, c < 4) → ∀ x : K,
      l.foldl (fun (retval : Fl K) i => retval + .fin (w i) * (match b.data i with | none => 0 | some a => f (st.heap a))) (.fin x) =
        .fin (l.foldl (fun retval i => retval + w i * (match b.data i with | none => 0 | some a => g (st.heap a))) x) := by
    intro l
    induction l with
    | nil => intro _ x; rfl
    | cons c l ih =>
      intro hl x
      rw [List.foldl_cons, List.foldl_cons, hterm c (hl c List.mem_cons_self)]
      exact ih (fun c hc => hl c (List.mem_cons_of_mem _ hc)) _
  exact key _ (fun c hc => by simpa [twoPow] using hc) 0

/-! ### Single-resolution maps -/

theorem Grid.perform_eq {V : Type} : ∀ (ls : List (List (Int × Int × V))) (g : Grid V), Grid.perform (ls.map some) g = Grid.writeAll ls.flatten g
  | [], g => rfl
  | l :: ls, g => by
    have happ : ∀ (a b : List (Int × Int × V)) (g : Grid V), Grid.writeAll (a ++ b) g = (Grid.writeAll a g).bind (Grid.writeAll b) := by
      intro a
      induction a with
      | nil => intro b g; rfl
      | cons e a ih =>
        intro b g
        obtain ⟨u, v, x⟩ := e
        simp only [List.cons_append, Grid.writeAll]
        cases g.write u v x with
        | none => rfl
        | some g' => simp only [Option.bind_some]; exact ih b g'
    rw [List.map_cons, Grid.perform, List.flatten_cons, happ]
    cases Grid.writeAll l g with
    | none => rfl
    | some g' => simp only [Option.bind_some]; exact Grid.perform_eq ls g'

/-- What a cell of the source contributes: the value of its distribution, 0 without one. -/
def Spec.monoValue (dens : D → Pt K 2 → Fl K) (p : Pt K 2) : Option D → Fl K
  | none => .fin 0
  | some x => dens x p

/-- Replacement of everything but normal numbers in `(0, 1]` by 0. -/
def Spec.sanitised (tiny : K) (v : Fl K) (x : K) : Prop := (v = .fin x ∧ tiny ≤ x ∧ x ≤ 1) ∨ (x = 0 ∧ ∀ y, v = .fin y → ¬ (tiny ≤ y ∧ y ≤ 1))

omit [FloorRing K] in
theorem sanitised_spec {tiny : K} (ht : 0 < tiny) (v : Fl K) :
    ∃ x, (if Fl.le 0 (validateFl tiny v) then validateFl tiny v else 0) = .fin x ∧ Spec.sanitised tiny v x := by
  have hz : ∀ v : Fl K, validateFl tiny v = 0 → (if Fl.le 0 (validateFl tiny v) then validateFl tiny v else 0) = .fin 0 := by
    intro v h; rw [h, ite_self]; rfl
  cases v with
  | nan => exact ⟨0, hz _ (by unfold validateFl; rw [if_pos (by simp [Fl.isNormal])]), .inr ⟨rfl, fun y h => by cases h⟩⟩
  | inf b => exact ⟨0, hz _ (by unfold validateFl; rw [if_pos (by simp [Fl.isNormal])]), .inr ⟨rfl, fun y h => by cases h⟩⟩
  | fin y =>
    by_cases h1 : 1 < y
    · refine ⟨0, hz _ (by unfold validateFl; rw [if_pos (by simp [Fl.lt, h1])]), .inr ⟨rfl, ?_⟩⟩
      rintro y' h ⟨_, h2⟩; cases h; exact absurd h2 (not_le.2 h1)
    · by_cases h2 : tiny ≤ |y|
      · have hv : validateFl tiny (.fin y) = .fin y := by
          unfold validateFl; rw [if_neg (by simp [Fl.lt, Fl.isNormal, not_lt.1 h1, h2])]
        rw [hv]
        by_cases h3 : 0 ≤ y
        · refine ⟨y, ?_, .inl ⟨rfl, ?_, not_lt.1 h1⟩⟩
          · rw [if_pos (show Fl.le 0 (.fin y) = true from decide_eq_true h3)]
          · rwa [abs_of_nonneg h3] at h2
        · refine ⟨0, ?_, .inr ⟨rfl, ?_⟩⟩
          · rw [if_neg (show ¬ Fl.le 0 (.fin y) = true from fun h => h3 (of_decide_eq_true h))]
            rfl
          · rintro y' h ⟨h4, _⟩; cases h; exact h3 (ht.le.trans h4)
      · refine ⟨0, hz _ (by unfold validateFl; rw [if_pos (by simp [Fl.isNormal, not_le.1 h2])]), .inr ⟨rfl, ?_⟩⟩
        rintro y' h ⟨h4, _⟩; cases h
        exact h2 (h4.trans (le_abs_self _))

/-- the loops over the columns and rows of the target: every cell is written at most once -/
theorem valueGrid_spec (tiny : K) (val : Nat → Nat → Fl K) (ww hh : Nat) :
    ∃ G, Grid.perform (((List.range hh).flatMap fun i => (List.range ww).map fun j => if Fl.le 0 (validateFl tiny (val i j)) then [((j : Int), (i : Int), validateFl tiny (val i j))] else []).map some) ⟨ww, hh, fun _ _ => 0⟩ = some G ∧
      G.width = ww ∧ G.height = hh ∧ ∀ j i, j < ww → i < hh → G.cells j i = if Fl.le 0 (validateFl tiny (val i j)) then validateFl tiny (val i j) else 0 := by
  let wr : Nat → Nat → List (Int × Int × Fl K) := fun i j => if Fl.le 0 (validateFl tiny (val i j)) then [((j : Int), (i : Int), validateFl tiny (val i j))] else []
  have hmemL : ∀ e : Int × Int × Fl K, e ∈ ((List.range hh).flatMap fun i => (List.range ww).map fun j => wr i j).flatten ↔
      ∃ i j, i < hh ∧ j < ww ∧ Fl.le 0 (validateFl tiny (val i j)) = true ∧ e = ((j : Int), (i : Int), validateFl tiny (val i j)) := by
    intro e
    rw [List.mem_flatten]
    constructor
    · rintro ⟨l, hl, he⟩
      obtain ⟨i, hi, hl⟩ := List.mem_flatMap.1 hl
      obtain ⟨j, hj, rfl⟩ := List.mem_map.1 hl
      rw [List.mem_range] at hi hj
      simp only [wr] at he
      split at he
      · next h => exact ⟨i, j, hi, hj, h, List.mem_singleton.1 he⟩
      · cases he
    · rintro ⟨i, j, hi, hj, h, rfl⟩
      refine ⟨wr i j, List.mem_flatMap.2 ⟨i, List.mem_range.2 hi, List.mem_map.2 ⟨j, List.mem_range.2 hj, rfl⟩⟩, ?_⟩
      simp only [wr, if_pos h, List.mem_singleton]
  have hnd : (((List.range hh).flatMap fun i => (List.range ww).map fun j => wr i j).flatten.map fun e => (e.1, e.2.1)).Nodup := by
    rw [List.map_flatten, List.map_flatMap, List.nodup_flatten]
    constructor
    · intro l hl
      obtain ⟨i, hi, hl⟩ := List.mem_flatMap.1 hl
      rw [List.map_map] at hl
      obtain ⟨j, hj, rfl⟩ := List.mem_map.1 hl
      simp only [Function.comp_apply, wr]
      split <;> simp
    · rw [List.pairwise_flatMap]
      have hkey : ∀ i j e, e ∈ (wr i j).map (fun e => (e.1, e.2.1)) → e = ((j : Int), (i : Int)) := by
        intro i j e he
        simp only [wr] at he
        split at he
        · simpa using he
        · cases he
      constructor
      · intro i _
        rw [List.map_map, List.pairwise_map]
        refine List.nodup_range.imp ?_
        intro j j' hne
        rw [List.disjoint_left]
        intro e he he'
        have h1 := hkey _ _ _ he
        have h2 := hkey _ _ _ he'
        rw [h1] at h2
        simp only [Prod.mk.injEq, Nat.cast_inj, and_true] at h2
        exact hne h2
      · refine List.nodup_range.imp ?_
        intro i i' hne l hl l' hl'
        rw [List.map_map] at hl hl'
        obtain ⟨j, _, rfl⟩ := List.mem_map.1 hl
        obtain ⟨j', _, rfl⟩ := List.mem_map.1 hl'
        rw [List.disjoint_left]
        intro e he he'
        have h1 := hkey _ _ _ he
        have h2 := hkey _ _ _ he'
        rw [h1] at h2
        simp only [Prod.mk.injEq, Nat.cast_inj] at h2
        exact hne h2.2
  obtain ⟨G, g1, g2, g3, g4, g5⟩ := Grid.writeAll_spec _ ⟨ww, hh, fun _ _ => (0 : Fl K)⟩ (by
    intro e he
    obtain ⟨i, j, hi, hj, -, rfl⟩ := (hmemL e).1 he
    simp only
    omega) hnd
  refine ⟨G, ?_, g2, g3, ?_⟩
  · rw [Grid.perform_eq]; exact g1
  · intro j i hj hi
    by_cases h : Fl.le 0 (validateFl tiny (val i j)) = true
    · rw [if_pos h]
      exact g4 _ ((hmemL _).2 ⟨i, j, hi, hj, h, rfl⟩)
    · rw [if_neg h, g5 j i]
      intro hmem
      obtain ⟨e, he, hk⟩ := List.mem_map.1 hmem
      obtain ⟨i', j', _, _, h', rfl⟩ := (hmemL e).1 he
      simp only [Prod.mk.injEq, Nat.cast_inj] at hk
      rw [hk.1, hk.2] at h'
      exact h h'

/-- **C43** (single-resolution maps). Whatever values the distributions yield, the conversion is defined, and every cell `(j, i)` of the target holds a number in `[0, 1]`, namely the value of the source cell that contains the corner
of the target cell if it is a normal number in `(0, 1]`, and 0 otherwise. -/
theorem C43_mono (r s tiny : K) (hr : 0 < r) (hs : 0 < s) (ht : 0 < tiny) (size : Fin 2 → Nat) (lo : Idx 2) (m : Mono 2 D) (hm : Mono.SameFrame (Mono.init size lo) m)
    (org : Pt K 2 → Pt K 2) (dens : D → Pt K 2 → Fl K) :
    ∃ G, monoToProb r s tiny org dens m = some G ∧ (G.width : Int) = ⌈(size 0 : K) * r / s⌉ ∧ (G.height : Int) = ⌈(size 1 : K) * r / s⌉ ∧
      ∀ j i, j < G.width → i < G.height → ∃ x, G.cells j i = .fin x ∧ 0 ≤ x ∧ x ≤ 1 ∧
        ∃ b : Idx 2, (∀ a, (b a : K) * r ≤ (lo a : K) * r + ![(j : K) * s, (i : K) * s] a ∧ (lo a : K) * r + ![(j : K) * s, (i : K) * s] a < ((b a : K) + 1) * r) ∧
          Spec.sanitised tiny (Spec.monoValue dens (org ![(j : K) * s, (i : K) * s]) (m.store.cells b)) x := by
  obtain ⟨hsz, hlo, hhi, hs1, hs2⟩ := hm
  have hsz' : m.size = size := hsz
  have hlo' : m.lo = lo := hlo
  have hext : ∀ a : Fin 2, 0 ≤ ⌈(m.size a : K) * r / s⌉ := fun a => Int.ceil_nonneg (div_nonneg (mul_nonneg (by positivity) hr.le) hs.le)
  -- the source index is in range
  let idx : Nat → Nat → Idx 2 := fun i j a => m.lo a + ⌊(![(j : K) * s, (i : K) * s] : Pt K 2) a / r⌋
  have hrange : ∀ (a : Fin 2) (n : Nat), n < ⌈(m.size a : K) * r / s⌉.toNat → 0 ≤ ⌊(n : K) * s / r⌋ ∧ ⌊(n : K) * s / r⌋ < m.size a := by
    intro a n hn
    have h1 : (n : Int) < ⌈(m.size a : K) * r / s⌉ := by omega
    rw [Int.lt_ceil, lt_div_iff₀ hs] at h1
    refine ⟨Int.floor_nonneg.2 (div_nonneg (mul_nonneg (by positivity) hs.le) hr.le), ?_⟩
    rw [Int.floor_lt, div_lt_iff₀ hr]
    push_cast at h1 ⊢
    exact h1
  let val : Nat → Nat → Fl K := fun i j => Spec.monoValue dens (org ![(j : K) * s, (i : K) * s]) (m.store.cells (idx i j))
  have hsample : ∀ i j, j < ⌈(m.size 0 : K) * r / s⌉.toNat → i < ⌈(m.size 1 : K) * r / s⌉.toNat →
      m.sampleIdx dens (org ![(j : K) * s, (i : K) * s]) (idx i j) = some (val i j) := by
    intro i j hj hi
    unfold Mono.sampleIdx
    have hok : (arrayBackend 2).ok m.store (idx i j) = true := by
      refine decide_eq_true ?_
      intro a
      have e1 : m.store.offset a = m.lo a := by rw [hlo', hs2]; rfl
      have e2 : m.store.size a = m.size a := by rw [hsz', hs1]; rfl
      rw [e1, e2]
      fin_cases a
      · have := hrange 0 j hj
        simp only [idx, Fin.zero_eta, Fin.isValue, Matrix.cons_val_zero]; omega
      · have := hrange 1 i hi
        simp only [idx, Fin.mk_one, Fin.isValue, Matrix.cons_val_one, Matrix.cons_val_fin_one]; omega
    rw [if_pos hok]
    show (match m.store.cells (idx i j) with | none => some 0 | some s => some (dens s _)) = _
    simp only [val]
    cases m.store.cells (idx i j) <;> rfl
  let wr : Nat → Nat → List (Int × Int × Fl K) := fun i j => if Fl.le 0 (validateFl tiny (val i j)) then [((j : Int), (i : Int), validateFl tiny (val i j))] else []
  have hW : monoWrites r s tiny org dens m ⌈(m.size 0 : K) * r / s⌉.toNat ⌈(m.size 1 : K) * r / s⌉.toNat =
      ((List.range ⌈(m.size 1 : K) * r / s⌉.toNat).flatMap fun i => (List.range ⌈(m.size 0 : K) * r / s⌉.toNat).map fun j => wr i j).map some := by
    unfold monoWrites
    rw [List.map_flatMap]
    refine List.flatMap_congr fun i hi => ?_
    rw [List.map_map]
    refine List.map_congr_left fun j hj => ?_
    rw [List.mem_range] at hi hj
    have := hsample i j hj hi
    simp only [idx] at this
    simp only [this, Option.map_some, Function.comp_apply, wr]
  generalize hww : ⌈(m.size 0 : K) * r / s⌉.toNat = ww at *
  generalize hhh : ⌈(m.size 1 : K) * r / s⌉.toNat = hh at *
  obtain ⟨G, g1, g2, g3, g4⟩ := valueGrid_spec tiny val ww hh
  refine ⟨G, ?_, ?_, ?_, ?_⟩
  · unfold monoToProb
    simp only [hww, hhh]
    rw [hW]
    exact g1
  · rw [g2, ← hsz']; show (ww : Int) = _; rw [← hww]; exact Int.toNat_of_nonneg (hext 0)
  · rw [g3, ← hsz']; show (hh : Int) = _; rw [← hhh]; exact Int.toNat_of_nonneg (hext 1)
  · intro j i hj hi
    rw [g2] at hj
    rw [g3] at hi
    have hcell := g4 j i hj hi
    obtain ⟨x, hx, hsan⟩ := sanitised_spec ht (val i j)
    rw [← hcell] at hx
    have hx01 : 0 ≤ x ∧ x ≤ 1 := by
      rcases hsan with ⟨_, h1, h2⟩ | ⟨h1, _⟩
      · exact ⟨ht.le.trans h1, h2⟩
      · rw [h1]; exact ⟨le_refl _, zero_le_one⟩
    refine ⟨x, hx, hx01.1, hx01.2, idx i j, ?_, hsan⟩
    intro a
    have h1 := Int.floor_le ((![(j : K) * s, (i : K) * s] : Pt K 2) a / r)
    have h2 := Int.lt_floor_add_one ((![(j : K) * s, (i : K) * s] : Pt K 2) a / r)
    rw [le_div_iff₀ hr] at h1
    rw [div_lt_iff₀ hr] at h2
    simp only [idx, hlo']
    push_cast
    constructor <;> linarith

/-- Non-vacuity for C43 on single-resolution maps. -/
example (org : Pt ℚ 2 → Pt ℚ 2) (dens : Multiset (Pt ℚ 2) → Pt ℚ 2 → Fl ℚ) : ∃ G, monoToProb (1 : ℚ) (1/4) (1/1000) org dens (Mono.init ![3, 2] ![-1, 5]) = some G ∧ G.width = 12 ∧ G.height = 8 := by
  obtain ⟨G, h1, h2, h3, -⟩ := C43_mono (1 : ℚ) (1/4) (1/1000) (by norm_num) (by norm_num) (by norm_num) ![3, 2] ![-1, 5] (Mono.init ![3, 2] ![-1, 5]) (.refl _) org dens
  refine ⟨G, h1, ?_, ?_⟩
  · norm_num at h2; exact_mod_cast h2
  · norm_num at h3; exact_mod_cast h3

/-! ### C59: likelihood fields -/

/-- **C59.** For every reachable non-empty map, every distance transform and every `sigma ≠ 0`, the likelihood field is defined, all likelihoods are in `(0, 1]`, a cell has likelihood 1 exactly if its distance is 0, and of two cells, the one with
the smaller distance is the more likely one. -/
theorem C59_likelihood_field [Inhabited D] (k : Kind 2) (exp : D → Bool) (st : St k.backend D) (hR : MapReachable k exp st) (hne : st.bundleIndices ≠ [])
    (hfit : ∀ size lo, k = .static size lo → ∀ a, 2 * size a ≤ 2147483647) (r s sigma : ℝ) (hr : 0 < r) (hs : 0 < s) (hsig : sigma ≠ 0) (bil : Bool) (dt : Grid ℝ → Nat → Nat → ℝ) (f : D → Pt ℝ 2 → ℝ) :
    ∃ P L, toProb r s 0 bil f st = some P ∧ toLikelihood r s sigma bil dt f st = some L ∧ L.width = P.width ∧ L.height = P.height ∧
      ∀ u v, 0 < L.cells u v ∧ L.cells u v ≤ 1 ∧ (L.cells u v = 1 ↔ dt P u v = 0) ∧ ∀ u' v', L.cells u v < L.cells u' v' ↔ |dt P u' v'| < |dt P u v| := by
  obtain ⟨G, h1, -⟩ := C42_safe k exp st hR hne hfit r s hr hs 0 (probValue bil f st)
  have h1' : toProb r s 0 bil f st = some G := h1
  have hpos : 0 < 1 / 2 / (sigma * sigma) := div_pos (by norm_num) (mul_self_pos.2 hsig)
  refine ⟨G, { G with cells := fun u v => likelihood sigma (dt G u v) }, h1', by unfold toLikelihood; rw [h1']; rfl, rfl, rfl, ?_⟩
  intro u v
  simp only [likelihood]
  refine ⟨Real.exp_pos _, ?_, ?_, ?_⟩
  · rw [Real.exp_le_one_iff]
    nlinarith [mul_self_nonneg (dt G u v), mul_nonneg (mul_self_nonneg (dt G u v)) hpos.le]
  · rw [Real.exp_eq_one_iff]
    constructor
    · intro h
      rcases mul_eq_zero.1 h with h | h
      · rcases mul_eq_zero.1 h with h | h
        · linarith
        · exact h
      · exact absurd h hpos.ne'
    · intro h; rw [h]; ring
  · intro u' v'
    rw [Real.exp_lt_exp, mul_lt_mul_iff_left₀ hpos, ← sq_lt_sq]
    constructor <;> intro h <;> nlinarith

/-! ### C53: empty maps -/

/-- **C53 refuted** (rasterisation). Every conversion of a dynamic map without insertions to a grid is undefined: the difference of the initial bounds overflows. -/
theorem C53_empty_raster_refuted [Inhabited D] (gb : Nat → Nat) (gb' : Nat) (r s : K) (dflt : V) (val : Bundle → Pt K 2 → (Fin 2 → K) → V) :
    rasterize r s dflt val ((Kind.dynamic (d := 2) gb gb').init D) = none := by
  have : rasterExtent r s ((Kind.dynamic (d := 2) gb gb').init D) 0 = none := by
    unfold rasterExtent intSub
    rfl
  unfold rasterize
  rw [this]

/-- **C53 refuted** (merging). Merging a dynamic map without insertions is undefined for the same reason. -/
theorem C53_empty_merge_refuted {E : Type} {d : Nat} (hd : 0 < d) (gb : Nat → Nat) (gb' : Nat) : Mono.merge ((Kind.dynamic (d := d) gb gb').init (Multiset E)) = none := by
  unfold Mono.merge
  rw [if_neg]
  intro h
  have : Mono.mergeSize ((Kind.dynamic (d := d) gb gb').init (Multiset E)) ⟨0, hd⟩ = none := by
    unfold Mono.mergeSize intSub
    rfl
  exact absurd (h ⟨0, hd⟩) (by rw [this]; decide)

end Ndt
