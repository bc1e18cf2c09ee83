import Verif.Proofs.MonoRasterFormat
import Verif.Props.Mono

/-!
C121: the conversion of a single-resolution map to a probability grid computes the size of the target and the cells of the source that it reads in the scalar type. In exact arithmetic every read is inside of the source (`C43_mono`).
In `double` and `float` the last column or row of the target can read one column or row outside of it.
-/

namespace Ndt
open Spec

section
variable {K : Type} [Field K] [LinearOrder K] [IsStrictOrderedRing K] [FloorRing K] {D : Type} {T : Format}

theorem monoSample_inside {lo : Idx 2} {size : Fin 2 → Nat} {m : Mono 2 D} (hm : Mono.SameFrame (Mono.init size lo) m) (dens : D → Pt (Fl K) 2 → Fl K) (p : Pt (Fl K) 2) (x y : Int) :
    m.sampleIdx dens p ![lo 0 + x, lo 1 + y] = if (0 ≤ x ∧ x < size 0) ∧ 0 ≤ y ∧ y < size 1 then some (cellValue dens p (m.store.cells ![lo 0 + x, lo 1 + y])) else none := by
  obtain ⟨hsz, hlo, _, hs1, hs2⟩ := hm
  have e1 : ∀ a, m.store.offset a = lo a := fun a => by rw [hs2]; rfl
  have e2 : ∀ a, m.store.size a = size a := fun a => by rw [hs1]; rfl
  have hok : (arrayBackend 2).ok m.store ![lo 0 + x, lo 1 + y] = true ↔ ((0 ≤ x ∧ x < size 0) ∧ 0 ≤ y ∧ y < size 1) := by
    show decide _ = true ↔ _
    rw [decide_eq_true_iff]; unfold Arr.InBox; rw [Fin.forall_fin_two]
    simp only [e1, e2, Matrix.cons_val_zero, Matrix.cons_val_one, Matrix.cons_val_fin_one]
    omega
  unfold Mono.sampleIdx
  by_cases h : (0 ≤ x ∧ x < size 0) ∧ 0 ≤ y ∧ y < size 1
  · rw [if_pos h, if_pos (hok.2 h)]
    show (match m.store.cells _ with | none => some 0 | some s => some (dens s _)) = _
    cases m.store.cells ![lo 0 + x, lo 1 + y] <;> rfl
  · rw [if_neg h, if_neg (fun h' => h (hok.1 h'))]

/-- **C121** (what the target holds). If the last column and the last row of the target read inside of the source, then the conversion is defined, the target has `columns` columns and rows, and the cell `(j, i)` holds a number in
`[0, 1]`, namely the value of the source cell in column `sourceColumn j` and row `sourceColumn i` at the rounded corner of the target cell if it is a normal number in `(0, 1]`, and 0 otherwise. -/
theorem C121_cells (hT : T = .single ∨ T = .double) {r s tiny : K} (r1 : (2 : K) ^ (-30 : Int) ≤ r) (r2 : r ≤ (2 : K) ^ (30 : Int)) (s1 : (2 : K) ^ (-30 : Int) ≤ s) (s2 : s ≤ (2 : K) ^ (30 : Int)) (ht : 0 < tiny)
    (size : Fin 2 → Nat) (lo : Idx 2) (hn : ∀ a, size a ≤ 1048576) (hw : ∀ a, (size a : K) * r ≤ 1048576 * s) (hlo : ∀ a, |lo a| ≤ 1073741824)
    (m : Mono 2 D) (hm : Mono.SameFrame (Mono.init size lo) m) (org : Pt (Fl K) 2 → Pt (Fl K) 2) (dens : D → Pt (Fl K) 2 → Fl K)
    (hin : ∀ a, sourceColumn T.t r s ((columns T.t (size a) r s).toNat - 1) < size a) :
    ∃ G, monoToProbF T r (.fin s) tiny org dens m = some G ∧ (G.width : Int) = columns T.t (size 0) r s ∧ (G.height : Int) = columns T.t (size 1) r s ∧
      ∀ j i, j < G.width → i < G.height → ∃ x, G.cells j i = .fin x ∧ 0 ≤ x ∧ x ≤ 1 ∧
        sanitised tiny (cellValue dens (org ![.fin (toBits T.t (j * s)), .fin (toBits T.t (i * s))]) (m.store.cells ![lo 0 + sourceColumn T.t r s j, lo 1 + sourceColumn T.t r s i])) x := by
  obtain ⟨hbits, _⟩ := scalar_facts hT
  have hr : 0 < r := lt_of_lt_of_le (zpow_pos two_pos _) r1
  have hs : 0 < s := lt_of_lt_of_le (zpow_pos two_pos _) s1
  have hsz : m.size = size := hm.1
  have hlo' : m.lo = lo := hm.lo
  obtain ⟨w1, w2, w3⟩ := monoExtentF_eq hT r1 r2 s1 s2 (hn 0) (hw 0)
  obtain ⟨h1, h2, h3⟩ := monoExtentF_eq hT r1 r2 s1 s2 (hn 1) (hw 1)
  have hcol : ∀ (a : Fin 2) (j : Nat), j < (columns T.t (size a) r s).toNat → sourceColumn T.t r s j < size a := fun a j hj =>
    lt_of_le_of_lt (sourceColumn_mono T.t hbits hr hs (by omega)) (hin a)
  have hidx : ∀ (a : Fin 2) (j : Nat), j < (columns T.t (size a) r s).toNat → monoIndexF T r (.fin s) (lo a) j = some (lo a + sourceColumn T.t r s j) ∧ 0 ≤ sourceColumn T.t r s j := by
    intro a j hj
    refine monoIndexF_eq hT r1 r2 s1 s2 ?_ (hlo a) ?_
    · fin_cases a
      · simp only [Fin.zero_eta, Fin.isValue] at hj; omega
      · simp only [Fin.mk_one, Fin.isValue] at hj; omega
    · have := hcol a j hj
      have := hn a
      omega
  have hpos : ∀ (a : Fin 2) (j : Nat), j < (columns T.t (size a) r s).toNat → monoPosF T (.fin s) j = .fin (toBits T.t (j * s)) := by
    intro a j hj
    refine (countPos_fin hT s1 s2 ?_).1
    fin_cases a
    · simp only [Fin.zero_eta, Fin.isValue] at hj; omega
    · simp only [Fin.mk_one, Fin.isValue] at hj; omega
  let val : Nat → Nat → Fl K := fun i j => cellValue dens (org ![.fin (toBits T.t (j * s)), .fin (toBits T.t (i * s))]) (m.store.cells ![lo 0 + sourceColumn T.t r s j, lo 1 + sourceColumn T.t r s i])
  have hW : monoWritesF T r (.fin s) tiny org dens m (columns T.t (size 0) r s).toNat (columns T.t (size 1) r s).toNat =
      ((List.range (columns T.t (size 1) r s).toNat).flatMap fun i => (List.range (columns T.t (size 0) r s).toNat).map fun j =>
        if Fl.le 0 (validateFl tiny (val i j)) then [((j : Int), (i : Int), validateFl tiny (val i j))] else []).map some := by
    unfold monoWritesF
    rw [List.map_flatMap]
    refine List.flatMap_congr fun i hi => ?_
    rw [List.map_map]
    refine List.map_congr_left fun j hj => ?_
    rw [List.mem_range] at hi hj
    rw [hlo', (hidx 0 j hj).1, (hidx 1 i hi).1, hpos 0 j hj, hpos 1 i hi]
    simp only [Option.bind_some]
    rw [monoSample_inside hm, if_pos ⟨⟨(hidx 0 j hj).2, hcol 0 j hj⟩, (hidx 1 i hi).2, hcol 1 i hi⟩]
    rfl
  obtain ⟨G, g1, g2, g3, g4⟩ := valueGrid_spec tiny val (columns T.t (size 0) r s).toNat (columns T.t (size 1) r s).toNat
  refine ⟨G, ?_, by rw [g2, Int.toNat_of_nonneg w2], by rw [g3, Int.toNat_of_nonneg h2], ?_⟩
  · unfold monoToProbF
    rw [hsz, w1, h1]
    simp only
    rw [hW]
    exact g1
  · intro j i hj hi
    obtain ⟨x, hx, hsan⟩ := sanitised_spec ht (val i j)
    rw [g2] at hj
    rw [g3] at hi
    refine ⟨x, by rw [g4 j i hj hi]; exact hx, ?_, ?_, hsan⟩
    · rcases hsan with ⟨-, h, -⟩ | ⟨h, -⟩
      · exact ht.le.trans h
      · exact h.ge
    · rcases hsan with ⟨-, -, h⟩ | ⟨h, -⟩
      · exact h
      · rw [h]; exact zero_le_one

/-- **C121** (when it is defined). For a source of at least one cell, the conversion is defined exactly if the last column and the last row of the target read inside of the source. The contents of the map do not matter. -/
theorem C121_defined_iff (hT : T = .single ∨ T = .double) {r s tiny : K} (r1 : (2 : K) ^ (-30 : Int) ≤ r) (r2 : r ≤ (2 : K) ^ (30 : Int)) (s1 : (2 : K) ^ (-30 : Int) ≤ s) (s2 : s ≤ (2 : K) ^ (30 : Int)) (ht : 0 < tiny)
    (size : Fin 2 → Nat) (lo : Idx 2) (h0 : ∀ a, 0 < size a) (hn : ∀ a, size a ≤ 1048576) (hw : ∀ a, (size a : K) * r ≤ 1048576 * s) (hlo : ∀ a, |lo a| ≤ 1073741824)
    (m : Mono 2 D) (hm : Mono.SameFrame (Mono.init size lo) m) (org : Pt (Fl K) 2 → Pt (Fl K) 2) (dens : D → Pt (Fl K) 2 → Fl K) :
    (∃ G, monoToProbF T r (.fin s) tiny org dens m = some G) ↔ ∀ a, sourceColumn T.t r s ((columns T.t (size a) r s).toNat - 1) < size a := by
  refine ⟨fun hG a => ?_, fun hin => let ⟨G, h, _⟩ := C121_cells hT r1 r2 s1 s2 ht size lo hn hw hlo m hm org dens hin; ⟨G, h⟩⟩
  obtain ⟨hbits, _⟩ := scalar_facts hT
  have hr : 0 < r := lt_of_lt_of_le (zpow_pos two_pos _) r1
  have hs : 0 < s := lt_of_lt_of_le (zpow_pos two_pos _) s1
  have hsz : m.size = size := hm.1
  have hlo' : m.lo = lo := hm.lo
  obtain ⟨w1, w2, w3⟩ := monoExtentF_eq hT r1 r2 s1 s2 (hn 0) (hw 0)
  obtain ⟨h1, h2, h3⟩ := monoExtentF_eq hT r1 r2 s1 s2 (hn 1) (hw 1)
  have hp : ∀ a, 0 < columns T.t (size a) r s := fun a => Int.ceil_pos.2 (roundedRatio_pos T.t hbits hr hs (h0 a))
  have hidx : ∀ (a : Fin 2) (j : Nat), j < (columns T.t (size a) r s).toNat → monoIndexF T r (.fin s) (lo a) j = some (lo a + sourceColumn T.t r s j) := by
    intro a j hj
    refine (monoIndexF_eq hT r1 r2 s1 s2 ?_ (hlo a) ?_).1
    · fin_cases a
      · simp only [Fin.zero_eta, Fin.isValue] at hj; omega
      · simp only [Fin.mk_one, Fin.isValue] at hj; omega
    · have := lastColumn_le hT hr hs (hn a) (j := j) (by omega)
      have := hn a
      omega
  by_contra hlt
  obtain ⟨G, hG⟩ := hG
  have hnone : ∀ i j, i < (columns T.t (size 1) r s).toNat → j < (columns T.t (size 0) r s).toNat → ¬ (sourceColumn T.t r s j < size 0 ∧ sourceColumn T.t r s i < size 1) →
      monoToProbF T r (.fin s) tiny org dens m = none := by
    intro i j hi hj hne
    unfold monoToProbF
    rw [hsz, w1, h1]
    simp only
    refine Grid.perform_none _ (List.mem_flatMap.2 ⟨i, List.mem_range.2 hi, List.mem_map.2 ⟨j, List.mem_range.2 hj, ?_⟩⟩) _
    rw [hlo', hidx 0 j hj, hidx 1 i hi]
    simp only [Option.bind_some]
    rw [monoSample_inside hm, if_neg fun h => hne ⟨h.1.2, h.2.2⟩]
    rfl
  have p0 := hp 0
  have p1 := hp 1
  revert hlt
  refine Fin.cases (fun hlt => ?_) (fun b => Fin.cases (fun hlt => ?_) (fun c => c.elim0) b) a
  · rw [hnone 0 ((columns T.t (size 0) r s).toNat - 1) (by omega) (by omega) fun h => hlt h.1] at hG
    cases hG
  · rw [hnone ((columns T.t (size 1) r s).toNat - 1) 0 (by omega) (by omega) fun h => hlt h.2] at hG
    cases hG

/-- **C121** (how far off). The target has at most one column more or less than in exact arithmetic. Every column reads the column of the source that it reads in exact arithmetic or one of its neighbours, and at most one column beyond
the source. -/
theorem C121_off_by_one (hT : T = .single ∨ T = .double) {r s : K} (hr : 0 < r) (hs : 0 < s) {n : Nat} (hn : n ≤ 1048576) (hw : (n : K) * r ≤ 1048576 * s) :
    |columns T.t n r s - ⌈(n : K) * r / s⌉| ≤ 1 ∧
    ∀ j : Nat, (j : Int) < columns T.t n r s → 0 ≤ sourceColumn T.t r s j ∧ sourceColumn T.t r s j ≤ n ∧ |sourceColumn T.t r s j - ⌊(j : K) * s / r⌋| ≤ 1 := by
  have hq : (n : K) * r / s ≤ 1048576 := (div_le_iff₀ hs).2 hw
  obtain ⟨q1, q2⟩ := roundedRatio_near hT hr hs (Nat.cast_nonneg (α := K) n) (hq.trans (by norm_num))
  constructor
  · rw [abs_le]
    have a1 : ⌈(n : K) * r / s⌉ ≤ columns T.t n r s + 1 := by
      refine Int.ceil_le.2 ?_
      have := Int.le_ceil (roundedRatio T.t (n : K) r s)
      push_cast
      show _ ≤ (⌈roundedRatio T.t (n : K) r s⌉ : K) + 1
      linarith
    have a2 : columns T.t n r s ≤ ⌈(n : K) * r / s⌉ + 1 := by
      refine Int.ceil_le.2 ?_
      have := Int.le_ceil ((n : K) * r / s)
      push_cast
      linarith
    omega
  · intro j hj
    have hle := lastColumn_le hT hr hs hn hj
    refine ⟨Int.floor_nonneg.2 (roundedRatio_nonneg T.t hs hr j), hle, ?_⟩
    have hb : (j : K) * s / r ≤ 2097152 := by
      have h1 : ((j : Int) : K) < roundedRatio T.t (n : K) r s := Int.lt_ceil.1 hj
      rw [Int.cast_natCast] at h1
      have hu := (roundedRatio_bounds T.t hr hs ((unit24 (K := K) hT).2.trans (by norm_num)) (Nat.cast_nonneg (α := K) n)).2
      have hn' : (n : K) ≤ 1048576 := by exact_mod_cast hn
      obtain ⟨u0, u1⟩ := unit24 (K := K) hT
      generalize ((2 : K) ^ T.t)⁻¹ = w at *
      have h2 : (1 + w) ^ 2 ≤ 2 := by nlinarith
      have h3 : (n : K) * r / s * (1 + w) ^ 2 ≤ n * r / s * 2 := mul_le_mul_of_nonneg_left h2 (div_nonneg (mul_nonneg (Nat.cast_nonneg n) hr.le) hs.le)
      rw [div_le_iff₀ hr]
      have h4 : (j : K) ≤ n * r / s * 2 := by linarith
      calc (j : K) * s ≤ n * r / s * 2 * s := mul_le_mul_of_nonneg_right h4 hs.le
        _ = n * 2 * r := by field_simp
        _ ≤ 2097152 * r := mul_le_mul_of_nonneg_right (by linarith) hr.le
    obtain ⟨p1, p2⟩ := roundedRatio_near hT hs hr (Nat.cast_nonneg (α := K) j) hb
    have a1 : ⌊(j : K) * s / r⌋ < sourceColumn T.t r s j + 2 := by
      refine Int.floor_lt.2 ?_
      have := Int.lt_floor_add_one (roundedRatio T.t (j : K) s r)
      push_cast
      show _ < (⌊roundedRatio T.t (j : K) s r⌋ : K) + 2
      linarith
    have a2 : sourceColumn T.t r s j < ⌊(j : K) * s / r⌋ + 2 := by
      refine Int.floor_lt.2 ?_
      have := Int.lt_floor_add_one ((j : K) * s / r)
      push_cast
      linarith
    rw [abs_le]
    omega

/-- **C121** (partial: resolutions with few significant bits). If the resolution is a multiple `c * 2^e` of a power of two with so few bits that all its multiples up to the size of the map are numbers of the scalar type, and the sampling
resolution is the resolution times a power of two, then there is no rounding: the conversion is defined and each cell of the target holds what it holds in exact arithmetic. Missing: other resolutions. -/
theorem C121_few_bits_partial (hT : T = .single ∨ T = .double) {r s tiny : K} (r1 : (2 : K) ^ (-30 : Int) ≤ r) (r2 : r ≤ (2 : K) ^ (30 : Int)) (s1 : (2 : K) ^ (-30 : Int) ≤ s) (s2 : s ≤ (2 : K) ^ (30 : Int)) (ht : 0 < tiny)
    {c : Nat} {e k : Int} (hc : c * 1048577 < 2 ^ T.t) (hre : r = (c : K) * (2 : K) ^ e) (hse : s = r * (2 : K) ^ k)
    (size : Fin 2 → Nat) (lo : Idx 2) (hn : ∀ a, size a ≤ 1048576) (hw : ∀ a, (size a : K) * r ≤ 1048576 * s) (hlo : ∀ a, |lo a| ≤ 1073741824)
    (h0 : ∀ a, 0 < size a) (m : Mono 2 D) (hm : Mono.SameFrame (Mono.init size lo) m) (org : Pt (Fl K) 2 → Pt (Fl K) 2) (dens : D → Pt (Fl K) 2 → Fl K) :
    ∃ G, monoToProbF T r (.fin s) tiny org dens m = some G ∧ (G.width : Int) = ⌈(size 0 : K) * r / s⌉ ∧ (G.height : Int) = ⌈(size 1 : K) * r / s⌉ ∧
      ∀ j i, j < G.width → i < G.height → ∃ x, G.cells j i = .fin x ∧ 0 ≤ x ∧ x ≤ 1 ∧
        sanitised tiny (cellValue dens (org ![.fin (j * s), .fin (i * s)]) (m.store.cells ![lo 0 + ⌊(j : K) * s / r⌋, lo 1 + ⌊(i : K) * s / r⌋])) x := by
  obtain ⟨hbits, _⟩ := scalar_facts hT
  have hr : 0 < r := lt_of_lt_of_le (zpow_pos two_pos _) r1
  have hs : 0 < s := lt_of_lt_of_le (zpow_pos two_pos _) s1
  have hk : (0 : K) < (2 : K) ^ k := zpow_pos two_pos _
  have prod : ∀ n : Nat, n ≤ 1048577 → toBits T.t ((n : K) * r) = n * r := by
    intro n hn
    have e1 : (n : K) * r = ((n * c : Nat) : K) * (2 : K) ^ e := by rw [hre]; push_cast; ring
    rw [e1, toBits_scale, toBits_small]
    calc n * c ≤ 1048577 * c := Nat.mul_le_mul_right _ hn
      _ = c * 1048577 := Nat.mul_comm _ _
      _ < _ := hc
  have small : ∀ n : Nat, n ≤ 1048577 → ∀ z : Int, toBits T.t ((n : K) * (2 : K) ^ z) = n * (2 : K) ^ z := by
    intro n hn z
    rw [toBits_scale, toBits_small]
    have := bits24 hT
    omega
  have pos : ∀ n : Nat, n ≤ 1048577 → toBits T.t ((n : K) * s) = n * s := by
    intro n hn
    rw [hse, ← mul_assoc, toBits_scale, prod n hn]
  have e1 : ∀ n : Nat, n ≤ 1048577 → roundedRatio T.t (n : K) r s = n * r / s := by
    intro n hn
    unfold roundedRatio
    rw [prod n hn]
    have : (n : K) * r / s = n * (2 : K) ^ (-k) := by rw [hse, zpow_neg]; field_simp
    rw [this, small n hn]
  have e2 : ∀ n : Nat, n ≤ 1048577 → roundedRatio T.t (n : K) s r = n * s / r := by
    intro n hn
    unfold roundedRatio
    rw [pos n hn]
    have : (n : K) * s / r = n * (2 : K) ^ k := by rw [hse]; field_simp
    rw [this, small n hn]
  have hcol : ∀ a, columns T.t (size a) r s = ⌈(size a : K) * r / s⌉ := fun a => by
    unfold columns
    rw [e1 _ ((hn a).trans (by norm_num))]
  have hbound : ∀ a, columns T.t (size a) r s ≤ 1048577 := fun a => (monoExtentF_eq hT r1 r2 s1 s2 (hn a) (hw a)).2.2
  obtain ⟨G, g1, g2, g3, g4⟩ := C121_cells hT r1 r2 s1 s2 ht size lo hn hw hlo m hm org dens (by
    intro a
    have hp : 0 < columns T.t (size a) r s := Int.ceil_pos.2 (roundedRatio_pos T.t hbits hr hs (h0 a))
    have hb := hbound a
    unfold sourceColumn
    rw [e2 _ (by omega), Int.floor_lt, div_lt_iff₀ hr]
    have : (((columns T.t (size a) r s).toNat - 1 : Nat) : Int) < ⌈(size a : K) * r / s⌉ := by rw [← hcol]; omega
    rw [Int.lt_ceil, lt_div_iff₀ hs] at this
    push_cast at this ⊢
    exact this)
  refine ⟨G, g1, by rw [g2, hcol], by rw [g3, hcol], fun j i hj hi => ?_⟩
  obtain ⟨x, x1, x2, x3, x4⟩ := g4 j i hj hi
  have hj' : j ≤ 1048577 := by have := hbound 0; omega
  have hi' : i ≤ 1048577 := by have := hbound 1; omega
  refine ⟨x, x1, x2, x3, ?_⟩
  unfold sourceColumn at x4
  rw [pos j hj', pos i hi', e2 j hj', e2 i hi'] at x4
  exact x4

omit [IsStrictOrderedRing K] in
/-- **C121** (NaN and zero). With the sampling resolution NaN or zero the conversion is undefined, for every map. -/
theorem C121_nan_zero (T : Format) (r tiny : K) (m : Mono 2 D) (org : Pt (Fl K) 2 → Pt (Fl K) 2) (dens : D → Pt (Fl K) 2 → Fl K) :
    monoToProbF T r .nan tiny org dens m = none ∧ monoToProbF T r (.fin 0) tiny org dens m = none := by
  have key : ∀ s : Fl K, monoExtentF T r s (m.size 0) = none → monoToProbF T r s tiny org dens m = none := by
    intro s h
    unfold monoToProbF
    rw [h]
  refine ⟨key _ ?_, key _ ?_⟩
  · unfold monoExtentF Format.div
    generalize T.mul (T.round (m.size 0 : K)) (.fin r) = y
    cases y <;> rfl
  · unfold monoExtentF Format.div
    generalize T.mul (T.round (m.size 0 : K)) (.fin r) = y
    cases y with
    | nan => rfl
    | inf a => rfl
    | fin x =>
      have : Fl.div (.fin x) (.fin (0 : K)) = .nan ∨ Fl.div (.fin x) (.fin (0 : K)) = .inf (decide (x < 0)) := by
        show (if (0 : K) = 0 then _ else _) = _ ∨ (if (0 : K) = 0 then _ else _) = _
        rw [if_pos rfl]
        by_cases h : x = 0
        · left; rw [if_pos h]
        · right; rw [if_neg h]
      rcases this with h | h <;> rw [h] <;> rfl

/-- **C121** (infinite sampling resolution). The target has no cells. -/
theorem C121_infinite (hT : T = .single ∨ T = .double) {r tiny : K} (r1 : (2 : K) ^ (-30 : Int) ≤ r) (r2 : r ≤ (2 : K) ^ (30 : Int)) (neg : Bool) (m : Mono 2 D) (hn : ∀ a, m.size a ≤ 4194304)
    (org : Pt (Fl K) 2 → Pt (Fl K) 2) (dens : D → Pt (Fl K) 2 → Fl K) :
    ∃ G, monoToProbF T r (.inf neg) tiny org dens m = some G ∧ G.width = 0 ∧ G.height = 0 := by
  have ext : ∀ a, monoExtentF T r (.inf neg) (m.size a) = some 0 := by
    intro a
    unfold monoExtentF
    rw [(countPos_fin hT r1 r2 (hn a)).1]
    show flCeilSize (T.round 0) = some 0
    have hw : T.emin ≤ 0 ∧ (0 : Int) < T.emax := by rcases hT with rfl | rfl <;> decide
    rw [(round_normal hT hw.1 hw.2 (Or.inl rfl) (by rw [abs_zero]; exact (zpow_pos two_pos _).le)).1, toBits_zero]
    show (if _ then _ else _) = _
    rw [Int.ceil_zero]
    rfl
  refine ⟨⟨0, 0, fun _ _ => 0⟩, ?_, rfl, rfl⟩
  unfold monoToProbF
  rw [ext, ext]
  rfl

/-- **C121** (negative sampling resolutions). The conversion is defined exactly if the map is narrower than one step in both directions, and then the target has no cells. -/
theorem C121_negative (hT : T = .single ∨ T = .double) {r s tiny : K} (r1 : (2 : K) ^ (-30 : Int) ≤ r) (r2 : r ≤ (2 : K) ^ (30 : Int)) (s1 : (2 : K) ^ (-30 : Int) ≤ s) (s2 : s ≤ (2 : K) ^ (30 : Int)) (m : Mono 2 D)
    (hn : ∀ a, m.size a ≤ 4194304) (org : Pt (Fl K) 2 → Pt (Fl K) 2) (dens : D → Pt (Fl K) 2 → Fl K) :
    (∀ G, monoToProbF T r (.fin (-s)) tiny org dens m = some G → G.width = 0 ∧ G.height = 0) ∧
    ((∃ G, monoToProbF T r (.fin (-s)) tiny org dens m = some G) ↔ ∀ a, roundedRatio T.t (m.size a : K) r s < 1) := by
  have hr : 0 < r := lt_of_lt_of_le (zpow_pos two_pos _) r1
  have hs : 0 < s := lt_of_lt_of_le (zpow_pos two_pos _) s1
  have ext : ∀ a, monoExtentF T r (.fin (-s)) (m.size a) = if roundedRatio T.t (m.size a : K) r s < 1 then some 0 else none := by
    intro a
    unfold monoExtentF
    rw [(roundedRatio_fin hT r1 r2 s1 s2 (hn a)).2]
    show (if _ then _ else _) = _
    have h0 := roundedRatio_nonneg T.t hr hs (m.size a)
    by_cases h : roundedRatio T.t (m.size a : K) r s < 1
    · have : ⌈-roundedRatio T.t (m.size a : K) r s⌉ = 0 := Int.ceil_eq_iff.2 ⟨by push_cast; linarith, by push_cast; linarith⟩
      rw [if_pos h, this]
      rfl
    · rw [if_neg h, if_neg]
      rintro ⟨h1, -⟩
      rw [Int.ceil_neg, Right.nonneg_neg_iff, ← Int.lt_add_one_iff, Int.floor_lt] at h1
      push_cast at h1
      exact h h1
  unfold monoToProbF
  rw [ext, ext]
  by_cases h0 : roundedRatio T.t (m.size 0 : K) r s < 1
  · by_cases h1 : roundedRatio T.t (m.size 1 : K) r s < 1
    · rw [if_pos h0, if_pos h1]
      refine ⟨fun G h => ?_, fun _ a => ?_, fun _ => ⟨_, rfl⟩⟩
      · cases h; exact ⟨rfl, rfl⟩
      · fin_cases a
        · exact h0
        · exact h1
    · rw [if_pos h0, if_neg h1]
      exact ⟨fun G h => (by cases h), ⟨fun h => (by obtain ⟨G, h⟩ := h; cases h), fun h => absurd (h 1) h1⟩⟩
  · rw [if_neg h0]
    exact ⟨fun G h => (by cases h), ⟨fun h => (by obtain ⟨G, h⟩ := h; cases h), fun h => absurd (h 0) h0⟩⟩

theorem mergeList_frame {d : Nat} {E : Type} : ∀ (l : List (Idx d × (Nat → Option (Multiset E)))) (m m' : Mono d (Multiset E)), Mono.mergeList l m = some m' → Mono.SameFrame m m'
  | [], m, m', h => by cases h; exact .refl m
  | (i, src) :: l, m, m', h => by
    obtain ⟨m2, h2, h3⟩ := Option.bind_eq_some_iff.1 h
    obtain ⟨m1, h1, h2⟩ := Option.bind_eq_some_iff.1 h2
    have f1 : Mono.SameFrame m m1 := by
      unfold Mono.getAllocate at h1
      split at h1
      · split at h1 <;> cases h1
        · exact .refl m
        · exact ⟨rfl, rfl, rfl, rfl, rfl⟩
      · cases h1
    have f2 : ∀ (cs : List Nat) (m1 m2 : Mono d (Multiset E)), Mono.addBins i src cs m1 = some m2 → Mono.SameFrame m1 m2 := by
      intro cs
      induction cs with
      | nil => intro m1 m2 h; cases h; exact .refl m1
      | cons c cs ih =>
        intro m1 m2 h
        unfold Mono.addBins at h
        split at h
        · cases h
        · next t _ => exact (Mono.SameFrame.mk rfl rfl rfl rfl rfl : Mono.SameFrame m1 (m1.modify i fun x => x + t)).trans (ih _ _ h)
    exact (f1.trans (f2 _ _ _ h2)).trans (mergeList_frame l _ _ h3)

/-- **C121** (merged maps). An NDT map is merged to a single-resolution map, whose cells are its bundles, and this map is converted. For every reachable map with at least one bundle both steps together are defined exactly if the last
column and the last row of the target read inside of the bounds of the map. -/
theorem C121_merged_iff {E : Type} (hT : T = .single ∨ T = .double) {r s tiny : K} (hr : InFormat T r) (r1 : (2 : K) ^ (-29 : Int) ≤ r) (r2 : r ≤ (2 : K) ^ (30 : Int)) (s1 : (2 : K) ^ (-30 : Int) ≤ s) (s2 : s ≤ (2 : K) ^ (30 : Int))
    (ht : 0 < tiny) {gb : Nat → Nat} {gb' : Nat} {exp : Multiset E → Bool} (st : St (octreeBackend 2) (Multiset E)) (hR : MapReachable (.dynamic gb gb') exp st) (hne : st.bundleIndices ≠ [])
    (hw : ∀ a, ((st.maxB a - st.minB a + 1 : Int) : K) * (r / 2) ≤ 1048576 * s) (org : Pt (Fl K) 2 → Pt (Fl K) 2) (dens : Multiset E → Pt (Fl K) 2 → Fl K) :
    bundleResolutionF T r = .fin (r / 2) ∧
    ((∃ m G, Mono.merge st = some m ∧ monoToProbF T (r / 2) (.fin s) tiny org dens m = some G) ↔
      ∀ a, sourceColumn T.t (r / 2) s ((columns T.t (st.maxB a - st.minB a + 1).toNat (r / 2) s).toNat - 1) < st.maxB a - st.minB a + 1) := by
  obtain ⟨hbits, _⟩ := scalar_facts hT
  have e30 : (2 : K) ^ (-30 : Int) ≤ (2 : K) ^ (-29 : Int) := zpow_le_zpow_right₀ one_le_two (by norm_num)
  obtain ⟨e1, -, e3, e4, -⟩ := edge_fin hT hbits hr (e30.trans r1) r2
  have r1' : (2 : K) ^ (-30 : Int) ≤ r / 2 := by
    rw [le_div_iff₀ two_pos, ← zpow_add_one₀ two_ne_zero]
    exact r1
  have r2' : r / 2 ≤ (2 : K) ^ (30 : Int) := e4.trans (zpow_le_zpow_right₀ one_le_two (by norm_num))
  have hb := dyn_bounds hR.spec.1 hne
  obtain ⟨m, hm, -⟩ := Mono.merge_spec st hR hne
  have hsz : ∀ a, (Mono.mergeSize st a).getD 0 = (st.maxB a - st.minB a + 1).toNat := fun a => by
    obtain ⟨n, h, h'⟩ := Mono.mergeSize_eq st a (hb a)
    rw [h, ← h']; rfl
  have hcast : ∀ a, (((st.maxB a - st.minB a + 1).toNat : Nat) : Int) = st.maxB a - st.minB a + 1 := fun a => Int.toNat_of_nonneg (by have := hb a; omega)
  have hF : Mono.SameFrame (Mono.init (fun a => (st.maxB a - st.minB a + 1).toNat) st.minB) m := by
    have h := hm
    unfold Mono.merge at h
    split at h
    · have := mergeList_frame _ _ _ h
      simp only [hsz] at this
      exact this
    · cases h
  refine ⟨e1, ?_⟩
  have key := C121_defined_iff hT (tiny := tiny) r1' r2' s1 s2 ht (fun a => (st.maxB a - st.minB a + 1).toNat) st.minB (fun a => by have := hb a; omega) (fun a => by have := hb a; omega)
    (fun a => by have := hw a; rw [← hcast a] at this; exact_mod_cast this) (fun a => by have := hb a; rw [abs_le]; omega) m hF org dens
  constructor
  · rintro ⟨m', G, h1, h2⟩ a
    rw [hm] at h1
    cases h1
    have := key.1 ⟨G, h2⟩ a
    rwa [hcast] at this
  · intro h
    obtain ⟨G, hG⟩ := key.2 fun a => by rw [hcast]; exact h a
    exact ⟨m, G, hm, hG⟩

end

/-- the numbers 0.01 of `double` and of `float` -/
theorem hundredth_inFormat : InFormat Format.double (5764607523034235 / 576460752303423488 : ℚ) ∧ InFormat Format.single (5368709 / 536870912 : ℚ) :=
  ⟨⟨⟨5764607523034235, -59, by decide, by decide, by norm_num⟩, by decide +kernel⟩, ⟨⟨5368709, -29, by decide, by decide, by norm_num⟩, by decide +kernel⟩⟩

/-- **C121** (refuted: the conversion stays inside of the source). A map of 7 cells times 1 cell of the edge 0.01, sampled with 0.01: in `double` the target has 8 columns and the last one reads outside of the map, whatever the map holds,
although the same conversion is defined in exact arithmetic; likewise a map of 55 cells times 1 cell in `float`. Maps of 6 and of 54 cells are converted. -/
theorem C121_outside_refuted (D : Type) (org : Pt (Fl ℚ) 2 → Pt (Fl ℚ) 2) (dens : D → Pt (Fl ℚ) 2 → Fl ℚ) (orgX : Pt ℚ 2 → Pt ℚ 2) (densX : D → Pt ℚ 2 → Fl ℚ) :
    (∀ m : Mono 2 D, Mono.SameFrame (Mono.init ![7, 1] ![0, 0]) m →
      monoToProbF .double (5764607523034235 / 576460752303423488) (.fin (5764607523034235 / 576460752303423488)) (1 / 1000) org dens m = none ∧
      (∃ G, monoToProb (5764607523034235 / 576460752303423488) (5764607523034235 / 576460752303423488) (1 / 1000) orgX densX m = some G)) ∧
    columns 53 7 (5764607523034235 / 576460752303423488 : ℚ) (5764607523034235 / 576460752303423488) = 8 ∧
    (∀ m : Mono 2 D, Mono.SameFrame (Mono.init ![6, 1] ![0, 0]) m →
      ∃ G, monoToProbF .double (5764607523034235 / 576460752303423488) (.fin (5764607523034235 / 576460752303423488)) (1 / 1000) org dens m = some G) ∧
    (∀ m : Mono 2 D, Mono.SameFrame (Mono.init ![55, 1] ![0, 0]) m →
      monoToProbF .single (5368709 / 536870912) (.fin (5368709 / 536870912)) (1 / 1000) org dens m = none ∧
      (∃ G, monoToProb (5368709 / 536870912) (5368709 / 536870912) (1 / 1000) orgX densX m = some G)) ∧
    (∀ m : Mono 2 D, Mono.SameFrame (Mono.init ![54, 1] ![0, 0]) m →
      ∃ G, monoToProbF .single (5368709 / 536870912) (.fin (5368709 / 536870912)) (1 / 1000) org dens m = some G) := by
  have d1 : (2 : ℚ) ^ (-30 : Int) ≤ 5764607523034235 / 576460752303423488 ∧ (5764607523034235 / 576460752303423488 : ℚ) ≤ (2 : ℚ) ^ (30 : Int) := by decide +kernel
  have f1 : (2 : ℚ) ^ (-30 : Int) ≤ 5368709 / 536870912 ∧ (5368709 / 536870912 : ℚ) ≤ (2 : ℚ) ^ (30 : Int) := by decide +kernel
  have iffD := fun (n : Nat) (h0 : 0 < n) (hn : n ≤ 1048576) (m : Mono 2 D) (hm : Mono.SameFrame (Mono.init ![n, 1] ![0, 0]) m) =>
    C121_defined_iff (K := ℚ) (T := .double) (tiny := 1 / 1000) (Or.inr rfl) d1.1 d1.2 d1.1 d1.2 (by norm_num) ![n, 1] ![0, 0] (by intro a; fin_cases a <;> simp [h0])
      (by intro a; fin_cases a <;> simp [hn])
      (by intro a; refine mul_le_mul_of_nonneg_right ?_ (by norm_num); fin_cases a
          · simp only [Fin.zero_eta, Fin.isValue, Matrix.cons_val_zero]; exact_mod_cast hn
          · norm_num)
      (by intro a; fin_cases a <;> simp) m hm org dens
  have iffS := fun (n : Nat) (h0 : 0 < n) (hn : n ≤ 1048576) (m : Mono 2 D) (hm : Mono.SameFrame (Mono.init ![n, 1] ![0, 0]) m) =>
    C121_defined_iff (K := ℚ) (T := .single) (tiny := 1 / 1000) (Or.inl rfl) f1.1 f1.2 f1.1 f1.2 (by norm_num) ![n, 1] ![0, 0] (by intro a; fin_cases a <;> simp [h0])
      (by intro a; fin_cases a <;> simp [hn])
      (by intro a; refine mul_le_mul_of_nonneg_right ?_ (by norm_num); fin_cases a
          · simp only [Fin.zero_eta, Fin.isValue, Matrix.cons_val_zero]; exact_mod_cast hn
          · norm_num)
      (by intro a; fin_cases a <;> simp) m hm org dens
  have toNone : ∀ (o : Option (Grid (Fl ℚ))), ¬ (∃ G, o = some G) → o = none := by
    intro o h
    cases o with
    | none => rfl
    | some G => exact absurd ⟨G, rfl⟩ h
  refine ⟨fun m hm => ⟨toNone _ fun h => ?_, ?_⟩, by decide +kernel, fun m hm => (iffD 6 (by norm_num) (by norm_num) m hm).2 (by decide +kernel), fun m hm => ⟨toNone _ fun h => ?_, ?_⟩,
    fun m hm => (iffS 54 (by norm_num) (by norm_num) m hm).2 (by decide +kernel)⟩
  · exact absurd ((iffD 7 (by norm_num) (by norm_num) m hm).1 h 0) (by decide +kernel)
  · exact let ⟨G, h, _⟩ := C43_mono _ _ _ (by norm_num) (by norm_num) (by norm_num) _ _ m hm orgX densX; ⟨G, h⟩
  · exact absurd ((iffS 55 (by norm_num) (by norm_num) m hm).1 h 0) (by decide +kernel)
  · exact let ⟨G, h, _⟩ := C43_mono _ _ _ (by norm_num) (by norm_num) (by norm_num) _ _ m hm orgX densX; ⟨G, h⟩

/-- an NDT map with the bundles `(0, 0)` and `(6, 0)` -/
def row7 : St (octreeBackend 2) (Multiset Unit) :=
  ((St.coreStep true (fun _ => true) (.bundleAt ![0, 0]) ((Kind.dynamic (d := 2) 0 0).init (Multiset Unit))).bind (St.coreStep true (fun _ => true) (.bundleAt ![6, 0]))).get (by decide +kernel)

theorem row7_reachable : MapReachable (Kind.dynamic (d := 2) 0 0) (fun _ => true) row7 := by
  obtain ⟨st1, h1, h2⟩ := Option.bind_eq_some_iff.1 (Option.some_get (x := (St.coreStep true (fun _ => true) (.bundleAt ![0, 0]) ((Kind.dynamic (d := 2) 0 0).init (Multiset Unit))).bind
    (St.coreStep true (fun _ => true) (.bundleAt ![6, 0]))) (by decide +kernel)).symm
  exact .core _ _ _ (.core _ _ _ .init h1) h2

/-- **C121** (refuted for merged maps, too). An NDT map of resolution 0.02 in `double` that reaches from bundle `(0, 0)` to bundle `(6, 0)`: merged and converted with the sampling resolution 0.01, it is read outside of its bounds. -/
theorem C121_merged_refuted (org : Pt (Fl ℚ) 2 → Pt (Fl ℚ) 2) (dens : Multiset Unit → Pt (Fl ℚ) 2 → Fl ℚ) :
    InFormat Format.double (5764607523034235 / 288230376151711744 : ℚ) ∧ bundleResolutionF .double (5764607523034235 / 288230376151711744 : ℚ) = .fin (5764607523034235 / 576460752303423488) ∧
    ∃ m, Mono.merge row7 = some m ∧ monoToProbF .double (5764607523034235 / 576460752303423488) (.fin (5764607523034235 / 576460752303423488)) (1 / 1000) org dens m = none := by
  have hf : InFormat Format.double (5764607523034235 / 288230376151711744 : ℚ) := ⟨⟨5764607523034235, -58, by decide, by decide, by norm_num⟩, by decide +kernel⟩
  have hne : row7.bundleIndices ≠ [] := by decide +kernel
  have hbd : (∀ a, row7.minB a = 0) ∧ (∀ a, row7.maxB a = ![6, 0] a) := by decide +kernel
  have e2 : (5764607523034235 / 288230376151711744 : ℚ) / 2 = 5764607523034235 / 576460752303423488 := by norm_num
  obtain ⟨h1, h2⟩ := C121_merged_iff (K := ℚ) (T := .double) (r := 5764607523034235 / 288230376151711744) (s := 5764607523034235 / 576460752303423488) (tiny := 1 / 1000) (Or.inr rfl) hf (by decide +kernel) (by decide +kernel) (by decide +kernel)
    (by decide +kernel) (by norm_num) row7 row7_reachable hne (by intro a; rw [hbd.1, hbd.2]; fin_cases a <;> norm_num) org dens
  rw [e2] at h1 h2
  obtain ⟨m, hm, -⟩ := Mono.merge_spec row7 row7_reachable hne
  refine ⟨hf, h1, m, hm, ?_⟩
  cases hG : monoToProbF .double (5764607523034235 / 576460752303423488 : ℚ) (.fin (5764607523034235 / 576460752303423488)) (1 / 1000) org dens m with
  | none => rfl
  | some G =>
    have := h2.1 ⟨m, G, hm, hG⟩ 0
    rw [hbd.1, hbd.2] at this
    exact absurd this (by decide +kernel)

/-- A map of 40 times 30 cells of the edge 1/4 in `float`, sampled with 1/16: 160 columns, 120 rows. -/
theorem C121_sample (m : Mono 2 Unit) (hm : Mono.SameFrame (Mono.init ![40, 30] ![-20, 3]) m) (dens : Unit → Pt (Fl ℚ) 2 → Fl ℚ) :
    ∃ G, monoToProbF .single (1 / 4 : ℚ) (.fin (1 / 16)) (1 / 1000) id dens m = some G ∧ G.width = 160 ∧ G.height = 120 := by
  obtain ⟨G, h1, h2, h3, -⟩ := C121_few_bits_partial (K := ℚ) (T := .single) (r := 1 / 4) (s := 1 / 16) (tiny := 1 / 1000) (Or.inl rfl) (by decide +kernel) (by decide +kernel) (by decide +kernel) (by decide +kernel) (by norm_num)
    (c := 1) (e := -2) (k := -2) (by decide) (by norm_num) (by norm_num) ![40, 30] ![-20, 3] (by decide) (by intro a; fin_cases a <;> norm_num) (by decide) (by decide) m hm id dens
  refine ⟨G, h1, ?_, ?_⟩
  · have e : ⌈(((![40, 30] : Fin 2 → Nat) 0 : Nat) : ℚ) * (1 / 4) / (1 / 16)⌉ = 160 := by decide +kernel
    rw [e] at h2; exact_mod_cast h2
  · have e : ⌈(((![40, 30] : Fin 2 → Nat) 1 : Nat) : ℚ) * (1 / 4) / (1 / 16)⌉ = 120 := by decide +kernel
    rw [e] at h3; exact_mod_cast h3

end Ndt
