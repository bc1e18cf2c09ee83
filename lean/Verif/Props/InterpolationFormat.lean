import Verif.Props.SamplingFormat

/-! Property theorem C114, continued: samples with interpolation, and samples of occupancy maps, over the whole range of `float` and `double`. -/

namespace Ndt
open St Spec

section
variable {K : Type} [Field K] [LinearOrder K] [IsStrictOrderedRing K] [FloorRing K] {d : Nat} {T : Format}

/-! ### Lemmas -/

theorem foldF_fin (hT : T = .single ∨ T = .double) : ∀ (l : List K) (a : K), 0 ≤ a → a ≤ 1 → (∀ x ∈ l, 0 ≤ x ∧ x ≤ 1) →
    (l.map Fl.fin).foldl (fun a b => T.conv (Fl.mul a b)) (.fin a) = .fin (l.foldl (fun a b => T.nearest (a * b)) a) ∧
    0 ≤ l.foldl (fun a b => T.nearest (a * b)) a ∧ l.foldl (fun a b => T.nearest (a * b)) a ≤ 1
  | [], a, h0, h1, _ => ⟨rfl, h0, h1⟩
  | x :: l, a, h0, h1, hl => by
    obtain ⟨x0, x1⟩ := hl x (List.mem_cons_self ..)
    obtain ⟨q1, q2, _, q4⟩ := nearest_unit hT (mul_nonneg h0 x0) (mul_le_one₀ h1 x0 x1)
    have ih := foldF_fin hT l (T.nearest (a * x)) q1 q2 fun y hy => hl y (List.mem_cons_of_mem _ hy)
    rw [List.map_cons, List.foldl_cons, List.foldl_cons]
    show (l.map Fl.fin).foldl (fun a b => T.conv (Fl.mul a b)) (T.round (a * x)) = _ ∧ _
    rw [q4]
    exact ih

theorem prod_unit {α : Type} (e : α → K) : ∀ l : List α, (∀ i ∈ l, 0 ≤ e i ∧ e i ≤ 1) → 0 ≤ (l.map e).prod ∧ (l.map e).prod ≤ 1
  | [], _ => by simp
  | i :: l, h => by
    obtain ⟨h1, h2⟩ := prod_unit e l fun j hj => h j (List.mem_cons_of_mem _ hj)
    obtain ⟨e0, e1⟩ := h i (List.mem_cons_self ..)
    rw [List.map_cons, List.prod_cons]
    exact ⟨mul_nonneg e0 h1, mul_le_one₀ e1 h1 h2⟩

theorem nearest_le (T : Format) {x : K} (h0 : 0 ≤ x) : T.nearest x ≤ x * (1 + ((2 : K) ^ T.t)⁻¹) + halfSmallest K T := by
  have := (abs_le.1 (T.nearest_err h0)).2
  unfold halfSmallest; linarith

theorem le_nearest (T : Format) {x : K} (h0 : 0 ≤ x) : x * (1 - ((2 : K) ^ T.t)⁻¹) - halfSmallest K T ≤ T.nearest x := by
  have := (abs_le.1 (T.nearest_err h0)).1
  unfold halfSmallest; linarith

/-- products of weights, from above -/
theorem foldN_upper (ht : 1 ≤ T.t) {α : Type} (b e : α → K) : ∀ (l : List α) (a x : K), 0 ≤ a → a ≤ x → (∀ i ∈ l, 0 ≤ b i ∧ b i ≤ e i * (1 + ((2 : K) ^ T.t)⁻¹) ∧ 0 ≤ e i ∧ e i ≤ 1) →
    (l.map b).foldl (fun a b => T.nearest (a * b)) a ≤ (x * (l.map e).prod + l.length * halfSmallest K T) * (1 + ((2 : K) ^ T.t)⁻¹) ^ (2 * l.length)
  | [], a, x, h0, hx, _ => by simpa using hx
  | i :: l, a, x, h0, hx, h => by
    have hu : (0 : K) ≤ ((2 : K) ^ T.t)⁻¹ := by positivity
    have hη : 0 < halfSmallest K T := zpow_pos two_pos _
    obtain ⟨b0, b1, e0, e1⟩ := h i (List.mem_cons_self ..)
    have hl : ∀ j ∈ l, _ := fun j hj => h j (List.mem_cons_of_mem _ hj)
    obtain ⟨p0, p1⟩ := prod_unit e l fun j hj => (hl j hj).2.2
    have hn := nearest_le T (mul_nonneg h0 b0)
    have n0 := T.nearest_nonneg ht (mul_nonneg h0 b0)
    have ih := foldN_upper ht b e l (T.nearest (a * b i)) (x * e i * (1 + ((2 : K) ^ T.t)⁻¹) ^ 2 + halfSmallest K T) n0
    rw [List.map_cons, List.foldl_cons, List.map_cons, List.prod_cons, List.length_cons]
    set u := ((2 : K) ^ T.t)⁻¹
    have hab : a * b i ≤ x * (e i * (1 + u)) := mul_le_mul hx b1 b0 (h0.trans hx)
    have h2 : a * b i * (1 + u) ≤ x * (e i * (1 + u)) * (1 + u) := mul_le_mul_of_nonneg_right hab (by linarith)
    refine (ih (by nlinarith) hl).trans ?_
    have hpw : (0 : K) ≤ (1 + u) ^ (2 * l.length) := pow_nonneg (by linarith) _
    rw [show 2 * (l.length + 1) = 2 + 2 * l.length by ring, pow_add, ← mul_assoc]
    refine mul_le_mul_of_nonneg_right ?_ hpw
    have hlen : (0 : K) ≤ (l.length : K) := Nat.cast_nonneg _
    have hsq : (1 : K) ≤ (1 + u) ^ 2 := one_le_pow₀ (by linarith)
    push_cast
    have h3 : halfSmallest K T * (l.map e).prod ≤ halfSmallest K T := mul_le_of_le_one_right hη.le p1
    have h4 : ((l.length : K) + 1) * halfSmallest K T ≤ ((l.length : K) + 1) * halfSmallest K T * (1 + u) ^ 2 := le_mul_of_one_le_right (by positivity) hsq
    nlinarith

/-- products of weights, from below -/
theorem foldN_lower (ht : 1 ≤ T.t) {α : Type} (b e : α → K) : ∀ (l : List α) (a x : K), 0 ≤ a → x ≤ a → (∀ i ∈ l, 0 ≤ b i ∧ e i * (1 - ((2 : K) ^ T.t)⁻¹) ≤ b i ∧ 0 ≤ e i ∧ e i ≤ 1) →
    x * (l.map e).prod * (1 - ((2 : K) ^ T.t)⁻¹) ^ (2 * l.length) - l.length * halfSmallest K T ≤ (l.map b).foldl (fun a b => T.nearest (a * b)) a
  | [], a, x, h0, hx, _ => by simpa using hx
  | i :: l, a, x, h0, hx, h => by
    have hu : (0 : K) ≤ ((2 : K) ^ T.t)⁻¹ := by positivity
    have hu1 : ((2 : K) ^ T.t)⁻¹ < 1 := unit_roundoff_lt (K := K) T.t ht
    have hη : 0 < halfSmallest K T := zpow_pos two_pos _
    obtain ⟨b0, b1, e0, e1⟩ := h i (List.mem_cons_self ..)
    have hl : ∀ j ∈ l, _ := fun j hj => h j (List.mem_cons_of_mem _ hj)
    obtain ⟨p0, p1⟩ := prod_unit e l fun j hj => (hl j hj).2.2
    have hn := le_nearest T (mul_nonneg h0 b0)
    have n0 := T.nearest_nonneg ht (mul_nonneg h0 b0)
    have ih := foldN_lower ht b e l (T.nearest (a * b i)) (x * e i * (1 - ((2 : K) ^ T.t)⁻¹) ^ 2 - halfSmallest K T) n0
    rw [List.map_cons, List.prod_cons, List.map_cons, List.foldl_cons, List.length_cons]
    set u := ((2 : K) ^ T.t)⁻¹
    have h1u : (0 : K) ≤ 1 - u := by linarith
    have hab : x * (e i * (1 - u)) ≤ a * b i := by
      rcases le_or_gt 0 x with hx0 | hx0
      · exact mul_le_mul hx b1 (mul_nonneg e0 h1u) h0
      · exact (mul_nonpos_of_nonpos_of_nonneg hx0.le (mul_nonneg e0 h1u)).trans (mul_nonneg h0 b0)
    have h2 : x * (e i * (1 - u)) * (1 - u) ≤ a * b i * (1 - u) := mul_le_mul_of_nonneg_right hab h1u
    refine le_trans ?_ (ih (by nlinarith) hl)
    have hpw : (0 : K) ≤ (1 - u) ^ (2 * l.length) := pow_nonneg h1u _
    have hpw1 : (1 - u) ^ (2 * l.length) ≤ 1 := pow_le_one₀ h1u (by linarith)
    have h3 : halfSmallest K T * ((l.map e).prod * (1 - u) ^ (2 * l.length)) ≤ halfSmallest K T := mul_le_of_le_one_right hη.le (mul_le_one₀ p1 hpw hpw1)
    rw [show 2 * (l.length + 1) = 2 + 2 * l.length by ring, pow_add]
    push_cast
    linarith

/-- the position in the bundle, as computed -/
theorem positionF (hT : T = .single ∨ T = .double) (r : K) (p : Pt K d) (bi : Idx d) (h : finiteIndexF T r p = some bi) (i : Fin d) :
    ∃ y, T.conv (Fl.mul (.fin (p i)) (bundleResolutionInvF T r)) = .fin y ∧ InFormat T y ∧ InFormat T ((bi i : Int) : K) ∧ 0 ≤ y - bi i ∧ y - bi i < 1 ∧
      interpolationWeightsF T bi p (bundleResolutionInvF T r) i = .fin (if bi i % 2 ≠ 0 then T.nearest (y - bi i) else T.nearest (1 - T.nearest (y - bi i))) := by
  obtain ⟨a1, a2, a3, a4, a5, a6, a7⟩ := scalar_facts hT
  have hc := (toBundleIndexF_eq_some T r _ bi).1 h i
  unfold coordIndexF at hc
  obtain ⟨y, hy⟩ : ∃ y, T.conv (Fl.mul (.fin (p i)) (bundleResolutionInvF T r)) = .fin y := by
    cases hv : T.conv (Fl.mul (.fin (p i)) (bundleResolutionInvF T r)) with
    | fin y => exact ⟨y, rfl⟩
    | nan => rw [hv] at hc; cases hc
    | inf s => rw [hv] at hc; cases hc
  rw [hy] at hc
  have hf : ⌊y⌋ = bi i ∧ -2147483648 ≤ bi i ∧ bi i ≤ 2147483647 := by
    have hc : toInt ⌊y⌋ = some (bi i) := hc
    unfold toInt at hc
    split at hc
    · rename_i hr
      rw [Option.some.injEq] at hc
      exact ⟨hc, by omega, by omega⟩
    · cases hc
  have hyF : InFormat T y := by
    cases hm : Fl.mul (.fin (p i)) (bundleResolutionInvF T r) with
    | fin z => rw [hm] at hy; exact (C96_ieee T a1 z y hy).1
    | nan => rw [hm] at hy; cases hy
    | inf s => rw [hm] at hy; cases hy
  have hb : toBits T.t ((bi i : Int) : K) = (bi i : K) := by
    rw [← hf.1]; exact toBits_of_hasBits T.t a1 (hasBits_floor T.t hyF.hasBits)
  have hnat : ∀ n : Int, 0 ≤ n → T.nearest (n : K) = toBits T.t (n : K) := fun n hn => by
    refine T.nearest_sum a1 (k := n * 2 ^ (T.t - 1 - T.emin).toNat) (by exact_mod_cast hn) ?_
    push_cast
    rw [mul_assoc, ← zpow_natCast, ← zpow_add₀ two_ne_zero]
    rw [show (((T.t - 1 - T.emin).toNat : Nat) : Int) + (T.emin + 1 - (T.t : Int)) = 0 by omega, zpow_zero, mul_one]
  have hnb : T.nearest ((bi i : Int) : K) = (bi i : K) := by
    rcases le_or_gt 0 (bi i) with h0 | h0
    · rw [hnat _ h0, hb]
    · have := hnat (-bi i) (by omega)
      push_cast at this
      rw [T.nearest_neg, toBits_neg, hb] at this
      exact neg_injective this
  have hrb : T.round ((bi i : Int) : K) = .fin (bi i : K) := by
    unfold Format.round
    rw [hnb, if_pos]
    have h1 : |(bi i : K)| < (2 : K) ^ (32 : Int) := by
      have : |bi i| < 4294967296 := by rw [abs_lt]; omega
      have h2 : ((|bi i| : Int) : K) < ((4294967296 : Int) : K) := Int.cast_lt.2 this
      push_cast at h2
      rw [show (2 : K) ^ (32 : Int) = 4294967296 by norm_num]
      exact h2
    exact h1.trans_le (zpow_le_zpow_right₀ one_le_two a4)
  have f1 := Int.floor_le y
  have f2 := Int.lt_floor_add_one y
  rw [hf.1] at f1 f2
  have hpos : T.sub (T.conv (Fl.mul (.fin (p i)) (bundleResolutionInvF T r))) (T.round ((bi i : Int) : K)) = .fin (T.nearest (y - bi i)) ∧
      0 ≤ T.nearest (y - bi i) ∧ T.nearest (y - bi i) ≤ 1 ∧ InFormat T (T.nearest (y - bi i)) := by
    rw [hy, hrb]
    obtain ⟨q1, q2, q3, q4⟩ := nearest_unit hT (x := y - bi i) (by linarith) (by linarith)
    refine ⟨?_, q1, q2, q3⟩
    show T.round (y + -(bi i : K)) = _
    rw [← sub_eq_add_neg, q4]
  obtain ⟨e, q1, q2, q3⟩ := hpos
  have hbF : InFormat T ((bi i : Int) : K) := (C96_ieee T a1 _ _ hrb).1
  refine ⟨y, hy, hyF, hbF, by linarith, by linarith, ?_⟩
  unfold interpolationWeightsF
  simp only
  rw [e]
  split
  · rfl
  · obtain ⟨w1, w2, w3, w4⟩ := nearest_unit hT (x := 1 - T.nearest (y - bi i)) (by linarith) (by linarith)
    show T.round (1 + -T.nearest (y - bi i)) = _
    rw [← sub_eq_add_neg, w4]

/-- the weights of the dimensions are numbers from 0 to 1 -/
theorem weightsF_mem (hT : T = .single ∨ T = .double) (r : K) (p : Pt K d) (bi : Idx d) (h : finiteIndexF T r p = some bi) (i : Fin d) :
    UnitNumber T (interpolationWeightsF T bi p (bundleResolutionInvF T r) i) := by
  obtain ⟨y, _, _, _, h1, h2, h3⟩ := positionF hT r p bi h i
  obtain ⟨q1, q2, q3, _⟩ := nearest_unit hT h1 h2.le
  obtain ⟨w1, w2, w3, _⟩ := nearest_unit hT (x := 1 - T.nearest (y - bi i)) (by linarith) (by linarith)
  refine ⟨_, h3, ?_⟩
  split
  · exact ⟨q3, q1, q2⟩
  · exact ⟨w3, w1, w2⟩

/-- the computed weight of a bin against the exact product of the weights of the dimensions -/
theorem interpolationWeightF_bounds (hT : T = .single ∨ T = .double) (w : Fin d → Fl K) (v : Fin d → K) (hw : ∀ i, w i = .fin (v i) ∧ InFormat T (v i) ∧ 0 ≤ v i ∧ v i ≤ 1) (c : Nat) :
    0 ≤ interpolationWeight v c ∧ ∃ x, interpolationWeightF T w c = .fin x ∧ 0 ≤ x ∧ x ≤ 1 ∧
      interpolationWeight v c * (1 - ((2 : K) ^ T.t)⁻¹) ^ (2 * d) - d * halfSmallest K T ≤ x ∧
      x ≤ (interpolationWeight v c + d * halfSmallest K T) * (1 + ((2 : K) ^ T.t)⁻¹) ^ (2 * d) := by
  have ht := (scalar_facts hT).1
  have hu : (0 : K) ≤ ((2 : K) ^ T.t)⁻¹ := by positivity
  have hprod : interpolationWeight v c = ((List.finRange d).map fun i : Fin d => if c.testBit i.1 then v i else 1 - v i).prod := by
    rw [interpolationWeight_eq, Fin.prod_univ_def]
  have hN : ∀ i, T.nearest (1 - v i) = toBits T.t (1 - v i) := fun i => by
    obtain ⟨k1, hk1⟩ := (hw i).2.1.multiple
    obtain ⟨a1, a2, a3, a4, _⟩ := scalar_facts hT
    have h1 : InFormat T (1 : K) := by simpa using pow_inFormat (K := K) hT (n := 0) (by omega) (by omega)
    obtain ⟨k2, hk2⟩ := h1.multiple
    refine T.nearest_sum ht (k := k2 - k1) (by linarith [(hw i).2.2.2]) ?_
    push_cast
    rw [sub_mul, ← hk1, ← hk2]
  set b : Fin d → K := fun i => if c.testBit i.1 then v i else T.nearest (1 - v i) with hb
  set e : Fin d → K := fun i => if c.testBit i.1 then v i else 1 - v i with he
  have hfold : interpolationWeightF T w c = ((((List.finRange d).map b).map Fl.fin).foldl (fun a b => T.conv (Fl.mul a b)) (.fin 1)) := by
    unfold interpolationWeightF interpolationWeightInnerF
    simp only [bit_cond]
    rw [List.map_map]
    congr 1
    refine List.map_congr_left fun i _ => ?_
    obtain ⟨h1, h2, h3, h4⟩ := hw i
    show (if c.testBit i.1 = true then w i else T.sub (.fin 1) (w i)) = Fl.fin (b i)
    rw [h1, hb]
    simp only
    split
    · rfl
    · obtain ⟨_, _, _, w4⟩ := nearest_unit hT (x := 1 - v i) (by linarith) (by linarith)
      show T.round (1 + -v i) = _
      rw [← sub_eq_add_neg, w4]
  have hbe : ∀ i, (0 ≤ b i ∧ b i ≤ 1) ∧ (0 ≤ e i ∧ e i ≤ 1) ∧ b i ≤ e i * (1 + ((2 : K) ^ T.t)⁻¹) ∧ e i * (1 - ((2 : K) ^ T.t)⁻¹) ≤ b i := fun i => by
    obtain ⟨_, _, h3, h4⟩ := hw i
    rw [hb, he]
    simp only
    split
    · exact ⟨⟨h3, h4⟩, ⟨h3, h4⟩, by nlinarith [mul_nonneg h3 hu], by nlinarith [mul_nonneg h3 hu]⟩
    · obtain ⟨q1, q2, _, _⟩ := nearest_unit hT (x := 1 - v i) (by linarith) (by linarith)
      have := toBits_err T.t (1 - v i)
      rw [abs_of_nonneg (by linarith : 0 ≤ 1 - v i), ← hN] at this
      obtain ⟨s1, s2⟩ := abs_le.1 this
      exact ⟨⟨q1, q2⟩, ⟨by linarith, by linarith⟩, by linarith, by linarith⟩
  obtain ⟨f1, f2, f3⟩ := foldF_fin hT ((List.finRange d).map b) 1 zero_le_one le_rfl (fun x hx => by
    obtain ⟨i, _, rfl⟩ := List.mem_map.1 hx
    exact (hbe i).1)
  refine ⟨by rw [hprod]; exact (prod_unit e _ fun i _ => (hbe i).2.1).1, _, hfold.trans f1, f2, f3, ?_, ?_⟩
  · have := foldN_lower ht b e (List.finRange d) 1 1 zero_le_one le_rfl (fun i _ => ⟨(hbe i).1.1, (hbe i).2.2.2, (hbe i).2.1⟩)
    rw [one_mul, ← hprod, List.length_finRange] at this
    exact this
  · have := foldN_upper ht b e (List.finRange d) 1 1 zero_le_one le_rfl (fun i _ => ⟨(hbe i).1.1, (hbe i).2.2.1, (hbe i).2.1⟩)
    rw [one_mul, ← hprod, List.length_finRange] at this
    exact this

/-- the interpolated value, as computed -/
theorem interpolationF_core {D : Type} [Inhabited D] {k : Kind d} {exp : D → Bool} {st : St k.backend D} (hR : MapReachable k exp st) (hT : T = .single ∨ T = .double) (hdt : d ≤ T.t)
    (w : Fin d → Fl K) (v : Fin d → K) (hv : ∀ i, w i = .fin (v i) ∧ InFormat T (v i) ∧ 0 ≤ v i ∧ v i ≤ 1) (f : D → Fl K) (y : D → K)
    (hy : ∀ s, f s = .fin (y s) ∧ InFormat T (y s) ∧ 0 ≤ y s ∧ y s ≤ 1)
    (bi : Idx d) (hb : bi ∈ st.bundleIndices) (z : Fl K) (hz : sampleWithF T k.dyn (interpolationWeightF T w) f bi st = some z) :
    ∃ x, z = .fin x ∧ InFormat T x ∧ 0 ≤ x ∧
      ((∑ c ∈ Finset.range (2 ^ d), interpolationWeight v c * y (st.abs.val c (generateIndex bi c))) * (1 - ((2 : K) ^ T.t)⁻¹) ^ (2 * d + 1) - 2 ^ d * ((d + 1) * halfSmallest K T)) * (1 - ((2 : K) ^ T.t)⁻¹) ^ (2 ^ d + 1) ≤ x ∧
      x ≤ ((∑ c ∈ Finset.range (2 ^ d), interpolationWeight v c * y (st.abs.val c (generateIndex bi c))) + 2 ^ d * ((d + 1) * halfSmallest K T)) * (1 + ((2 : K) ^ T.t)⁻¹) ^ (2 ^ d + 2 * d + 2) ∧
      (0 < x → ∃ c y, c < 2 ^ d ∧ f (st.abs.val c (generateIndex bi c)) = .fin y ∧ 0 < y) := by
  have ht := (scalar_facts hT).1
  have hu : (0 : K) ≤ ((2 : K) ^ T.t)⁻¹ := by positivity
  have hu1 : ((2 : K) ^ T.t)⁻¹ < 1 := unit_roundoff_lt (K := K) T.t ht
  have hη : 0 < halfSmallest K T := zpow_pos two_pos _
  have hW := fun c => interpolationWeightF_bounds hT w v hv c
  choose hW0 W hW1 hW2 hW3 hW4 hW5 using hW
  have h2 := (sampleWithF_value hR T _ f bi z hz).1 hb
  set a : Nat → K := fun c => y (st.abs.val c (generateIndex bi c)) with ha
  have hab : ∀ c, 0 ≤ a c ∧ a c ≤ 1 := fun c => (hy _).2.2
  have h3 := sumF_fin hT ht (fun c => Fl.mul (interpolationWeightF T w c) (f (st.abs.val c (generateIndex bi c)))) (fun c => W c * a c) (2 ^ d)
    (Nat.pow_le_pow_right (by omega) hdt) (fun c _ => by
      refine ⟨?_, mul_nonneg (hW2 c) (hab c).1, mul_le_one₀ (hW3 c) (hab c).1 (hab c).2⟩
      show Fl.mul (interpolationWeightF T w c) (f _) = _
      rw [hW1, (hy _).1]; rfl)
  have hq0 : ∀ c, c < 2 ^ d → 0 ≤ T.nearest (W c * a c) := fun c _ => T.nearest_nonneg ht (mul_nonneg (hW2 c) (hab c).1)
  refine ⟨_, h2.trans h3.1, h3.2.2.2, h3.2.1, ?_, ?_, ?_⟩
  · refine le_trans (mul_le_mul_of_nonneg_right ?_ (pow_nonneg (by linarith) _)) (sumR_lower (ieee K T.t ht) (show ((2 : K) ^ T.t)⁻¹ ≤ 1 from hu1.le) _ _ hq0)
    have hc : ∀ c ∈ Finset.range (2 ^ d), interpolationWeight v c * a c * (1 - ((2 : K) ^ T.t)⁻¹) ^ (2 * d + 1) - (d + 1) * halfSmallest K T ≤ T.nearest (W c * a c) := fun c _ => by
      refine le_trans ?_ (le_nearest T (mul_nonneg (hW2 c) (hab c).1))
      have h4 := hW4 c
      obtain ⟨a3, a4⟩ := hab c
      have w0 := hW0 c
      have w2 := hW2 c
      set u := ((2 : K) ^ T.t)⁻¹
      have hp : (0 : K) ≤ (1 - u) ^ (2 * d) := pow_nonneg (by linarith) _
      have hd0 : (0 : K) ≤ d * halfSmallest K T := by positivity
      have s1 : (interpolationWeight v c * (1 - u) ^ (2 * d) - d * halfSmallest K T) * (a c * (1 - u)) ≤ W c * (a c * (1 - u)) :=
        mul_le_mul_of_nonneg_right h4 (mul_nonneg a3 (by linarith))
      have s3 : d * halfSmallest K T * (a c * (1 - u)) ≤ d * halfSmallest K T := mul_le_of_le_one_right hd0 (mul_le_one₀ a4 (by linarith) (by linarith))
      rw [pow_succ]
      nlinarith
    refine le_trans (le_of_eq ?_) (Finset.sum_le_sum hc)
    rw [Finset.sum_sub_distrib, ← Finset.sum_mul, Finset.sum_const, Finset.card_range, nsmul_eq_mul]
    push_cast; rfl
  · refine (sumR_upper (ieee K T.t ht) _ _ hq0).trans ?_
    rw [show 2 ^ d + 2 * d + 2 = (2 * d + 1) + (2 ^ d + 1) by ring, pow_add (1 + ((2 : K) ^ T.t)⁻¹) (2 * d + 1) (2 ^ d + 1), ← mul_assoc]
    show _ * (1 + ((2 : K) ^ T.t)⁻¹) ^ (2 ^ d + 1) ≤ _
    refine mul_le_mul_of_nonneg_right ?_ (pow_nonneg (show (0 : K) ≤ 1 + ((2 : K) ^ T.t)⁻¹ by linarith) _)
    have hc : ∀ c ∈ Finset.range (2 ^ d), T.nearest (W c * a c) ≤ (interpolationWeight v c * a c + (d + 1) * halfSmallest K T) * (1 + ((2 : K) ^ T.t)⁻¹) ^ (2 * d + 1) := fun c _ => by
      refine (nearest_le T (mul_nonneg (hW2 c) (hab c).1)).trans ?_
      have h5 := hW5 c
      obtain ⟨a3, a4⟩ := hab c
      have w0 := hW0 c
      set u := ((2 : K) ^ T.t)⁻¹
      have hp : (0 : K) ≤ (1 + u) ^ (2 * d) := pow_nonneg (by linarith) _
      have hp1 : (1 : K) ≤ (1 + u) ^ (2 * d + 1) := one_le_pow₀ (by linarith)
      have hd0 : (0 : K) ≤ d * halfSmallest K T := by positivity
      have s1 : W c * a c ≤ (interpolationWeight v c + d * halfSmallest K T) * (1 + u) ^ (2 * d) * a c := mul_le_mul_of_nonneg_right h5 a3
      have s2 : (interpolationWeight v c + d * halfSmallest K T) * a c ≤ interpolationWeight v c * a c + d * halfSmallest K T := by
        have := mul_le_of_le_one_right hd0 a4
        nlinarith
      have s3 : W c * a c * (1 + u) ≤ (interpolationWeight v c * a c + d * halfSmallest K T) * (1 + u) ^ (2 * d + 1) := by
        calc _ ≤ (interpolationWeight v c + d * halfSmallest K T) * (1 + u) ^ (2 * d) * a c * (1 + u) := mul_le_mul_of_nonneg_right s1 (by linarith)
          _ = ((interpolationWeight v c + d * halfSmallest K T) * a c) * (1 + u) ^ (2 * d + 1) := by rw [pow_succ]; ring
          _ ≤ _ := mul_le_mul_of_nonneg_right s2 (by positivity)
      have s4 : halfSmallest K T ≤ halfSmallest K T * (1 + u) ^ (2 * d + 1) := le_mul_of_one_le_right hη.le hp1
      nlinarith
    refine (Finset.sum_le_sum hc).trans (le_of_eq ?_)
    rw [← Finset.sum_mul, Finset.sum_add_distrib, Finset.sum_const, Finset.card_range, nsmul_eq_mul]
    push_cast; rfl
  · intro hx
    obtain ⟨c, hc, h⟩ := (sumR_pos_iff _ ht _ _ hq0).1 hx
    refine ⟨c, _, hc, (hy _).1, lt_of_le_of_ne (hab c).1 fun h0 => ?_⟩
    simp only [ha] at h
    rw [← h0, mul_zero, T.nearest_zero] at h
    exact lt_irrefl _ h

/-- the same for densities between two bounds -/
theorem interpolationF_value {D : Type} [Inhabited D] {k : Kind d} {exp : D → Bool} {st : St k.backend D} (hR : MapReachable k exp st) (hT : T = .single ∨ T = .double) (hdt : d ≤ T.t)
    (w : Fin d → Fl K) (hw : ∀ i, UnitNumber T (w i)) (f : D → Fl K) (hf : ∀ s, UnitNumber T (f s)) (lo hi : K) (hlo : ∀ s y, f s = .fin y → lo ≤ y ∧ y ≤ hi)
    (bi : Idx d) (hb : bi ∈ st.bundleIndices) (z : Fl K) (hz : sampleWithF T k.dyn (interpolationWeightF T w) f bi st = some z) :
    ∃ x, z = .fin x ∧ InFormat T x ∧ 0 ≤ x ∧
      (lo * (1 - ((2 : K) ^ T.t)⁻¹) ^ (2 * d + 1) - 2 ^ d * ((d + 1) * halfSmallest K T)) * (1 - ((2 : K) ^ T.t)⁻¹) ^ (2 ^ d + 1) ≤ x ∧
      x ≤ (hi + 2 ^ d * ((d + 1) * halfSmallest K T)) * (1 + ((2 : K) ^ T.t)⁻¹) ^ (2 ^ d + 2 * d + 2) ∧
      (0 < x → ∃ c y, c < 2 ^ d ∧ f (st.abs.val c (generateIndex bi c)) = .fin y ∧ 0 < y) := by
  have hu : (0 : K) ≤ ((2 : K) ^ T.t)⁻¹ := by positivity
  have hu1 : ((2 : K) ^ T.t)⁻¹ < 1 := unit_roundoff_lt (K := K) T.t (scalar_facts hT).1
  obtain ⟨y, hy⟩ := choose_values f hf
  obtain ⟨v, hv⟩ := choose_values w hw
  obtain ⟨x, h1, h2, h3, h4, h5, h6⟩ := interpolationF_core hR hT hdt w v hv f y hy bi hb z hz
  have hs := sum_interpolationWeight v
  have hW0 := fun c => (interpolationWeightF_bounds hT w v hv c).1
  refine ⟨x, h1, h2, h3, le_trans ?_ h4, h5.trans ?_, h6⟩
  · refine mul_le_mul_of_nonneg_right (sub_le_sub_right (mul_le_mul_of_nonneg_right ?_ (pow_nonneg (by linarith) _)) _) (pow_nonneg (by linarith) _)
    calc lo = ∑ c ∈ Finset.range (2 ^ d), interpolationWeight v c * lo := by rw [← Finset.sum_mul, hs, one_mul]
      _ ≤ _ := Finset.sum_le_sum fun c _ => mul_le_mul_of_nonneg_left (hlo _ _ (hy _).1).1 (hW0 c)
  · refine mul_le_mul_of_nonneg_right (add_le_add_left ?_ _) (pow_nonneg (by linarith) _)
    calc _ ≤ ∑ c ∈ Finset.range (2 ^ d), interpolationWeight v c * hi := Finset.sum_le_sum fun c _ => mul_le_mul_of_nonneg_left (hlo _ _ (hy _).1).2 (hW0 c)
      _ = hi := by rw [← Finset.sum_mul, hs, one_mul]

/-- bounds on exponents change a rounded number by the smallest number at most -/
theorem nearest_toBits (ht : 1 ≤ T.t) (x : K) : |T.nearest x - toBits T.t x| ≤ 2 * halfSmallest K T := by
  have hη : 0 < halfSmallest K T := zpow_pos two_pos _
  have pos : ∀ x : K, 0 ≤ x → |T.nearest x - toBits T.t x| ≤ 2 * halfSmallest K T := fun x h0 => by
    rcases lt_or_ge x ((2 : K) ^ T.emin) with h | h
    · have hu : (0 : K) < ((2 : K) ^ T.t)⁻¹ := by positivity
      have e : (2 : K) ^ T.emin * ((2 : K) ^ T.t)⁻¹ = halfSmallest K T := by
        unfold halfSmallest; rw [zpow_sub₀ two_ne_zero, zpow_natCast, div_eq_mul_inv]
      have h1 := abs_le.1 (toBits_err T.t x)
      rw [abs_of_nonneg h0] at h1
      have h2 : ((2 : K) ^ T.t)⁻¹ * x ≤ halfSmallest K T := by rw [← e, mul_comm]; exact mul_le_mul_of_nonneg_right h.le hu.le
      have hq : (0 : K) < (2 : K) ^ (T.emin + 1 - (T.t : Int)) := zpow_pos two_pos _
      have e' : halfSmallest K T = 1 / 2 * (2 : K) ^ (T.emin + 1 - (T.t : Int)) := by
        unfold halfSmallest
        rw [show T.emin + 1 - (T.t : Int) = (T.emin - (T.t : Int)) + 1 by ring, zpow_add₀ two_ne_zero, zpow_one]; ring
      have h3 : |T.nearest x - x| ≤ halfSmallest K T := by
        rw [T.nearest_small h0 h]
        have := nearestEven_err (x / (2 : K) ^ (T.emin + 1 - (T.t : Int)))
        have e2 : (nearestEven (x / (2 : K) ^ (T.emin + 1 - (T.t : Int))) : K) * (2 : K) ^ (T.emin + 1 - (T.t : Int)) - x =
            ((nearestEven (x / (2 : K) ^ (T.emin + 1 - (T.t : Int))) : K) - x / (2 : K) ^ (T.emin + 1 - (T.t : Int))) * (2 : K) ^ (T.emin + 1 - (T.t : Int)) := by
          rw [sub_mul, div_mul_cancel₀ _ hq.ne']
        rw [e2, abs_mul, abs_of_pos hq, e']
        exact mul_le_mul_of_nonneg_right this hq.le
      obtain ⟨h4, h5⟩ := abs_le.1 h3
      rw [abs_le]
      constructor <;> linarith
    · rw [T.nearest_normal (by rwa [abs_of_nonneg h0]), sub_self, abs_zero]; linarith
  rcases le_or_gt 0 x with h | h
  · exact pos x h
  · have := pos (-x) (by linarith)
    rwa [T.nearest_neg, toBits_neg, ← neg_add', abs_neg, ← sub_eq_add_neg] at this

/-! ### C114, sampling with interpolation -/

/-- **C114.** Interpolated samples of densities between `lo` and `hi`, numbers from 0 to 1, subnormal ones included: finite, not negative, and between `lo` and `hi` up to a relative error of
roundings and an absolute one by underflow. -/
theorem C114_bilinear_bounds {D : Type} [Inhabited D] (k : Kind d) (exp : D → Bool) (st : St k.backend D) (hR : MapReachable k exp st) (hT : T = .single ∨ T = .double) (hdt : d ≤ T.t)
    (g : Geo K d) (dens : D → Pt K d → Fl K) (hd : ∀ s q, UnitNumber T (dens s q)) (lo hi : K) (hlo : ∀ s q y, dens s q = .fin y → lo ≤ y ∧ y ≤ hi) (p : Pt K d) (bi : Idx d)
    (hbi : finiteIndexF T g.r (g.toMap p) = some bi) (v : Fl K) (hv : sampleBilinearAtF T g k.dyn dens p st = some v) :
    (bi ∈ st.bundleIndices → ∃ x, v = .fin x ∧ InFormat T x ∧ 0 ≤ x ∧
      (lo * (1 - ((2 : K) ^ T.t)⁻¹) ^ (2 * d + 1) - 2 ^ d * ((d + 1) * halfSmallest K T)) * (1 - ((2 : K) ^ T.t)⁻¹) ^ (2 ^ d + 1) ≤ x ∧
      x ≤ (hi + 2 ^ d * ((d + 1) * halfSmallest K T)) * (1 + ((2 : K) ^ T.t)⁻¹) ^ (2 ^ d + 2 * d + 2)) ∧
    (bi ∉ st.bundleIndices → v = .fin 0) := by
  unfold sampleBilinearAtF at hv
  rw [hbi, Option.bind_some] at hv
  refine ⟨fun hb => ?_, (sampleWithF_value hR T _ _ bi v hv).2⟩
  obtain ⟨x, h1, h2, h3, h4, h5, _⟩ := interpolationF_value hR hT hdt _ (weightsF_mem hT g.r (g.toMap p) bi hbi) _ (fun s => hd s _) lo hi (fun s y h => hlo s _ y h) bi hb v hv
  exact ⟨x, h1, h2, h3, h4, h5⟩

/-- **C114.** An interpolated sample is the hat-function interpolation of the densities up to an absolute error: the one of C83 with one rounding more, and half the smallest positive number for
every product of weights and densities and for every position. -/
theorem C114_bilinear_error {D : Type} [Inhabited D] (k : Kind d) (exp : D → Bool) (st : St k.backend D) (hR : MapReachable k exp st) (hT : T = .single ∨ T = .double) (hdt : d ≤ T.t)
    (g : Geo K d) (h1 : (2 : K) ^ (T.emin + 1) ≤ g.r) (h2 : g.r ≤ (2 : K) ^ (-T.emin)) (hrt : toBits T.t g.r = g.r) (dens : D → Pt K d → Fl K) (hd : ∀ s q, UnitNumber T (dens s q)) (p : Pt K d)
    (bi : Idx d) (hbi : finiteIndexF T g.r (g.toMap p) = some bi) (hin : Spec.InClosedBundle g.r bi (g.toMap p)) (β : K) (hβ : ∀ i, |g.toMap p i| / (g.r / 2) ≤ β)
    (hb : bi ∈ st.bundleIndices) (z : Fl K) (hz : sampleBilinearAtF T g k.dyn dens p st = some z) :
    ∃ (s : Nat → D) (y : Nat → K) (x : K), (∀ c, c < 2 ^ d → st.binContent bi c = some (s c) ∧ dens (s c) (g.toMap p) = .fin (y c)) ∧ z = .fin x ∧
      |x - ∑ c ∈ Finset.range (2 ^ d), Spec.hat g.r c (generateIndex bi c) (g.toMap p) * y c| ≤
        (1 + 2 ^ d * ((d + 1) * halfSmallest K T)) * (1 + ((2 : K) ^ T.t)⁻¹) ^ (2 ^ d + 2 * d + 2) - 1 +
        d * (((1 + ((2 : K) ^ T.t)⁻¹) ^ 2 * (1 + ((2 : K) ^ 53)⁻¹) - 1) * β + 2 * ((2 : K) ^ T.t)⁻¹ + 2 * halfSmallest K T) := by
  obtain ⟨ht, a2, a3, a4, a5, a6, a7⟩ := scalar_facts hT
  have hr : 0 < g.r := (zpow_pos two_pos _).trans_le h1
  have hη : 0 < halfSmallest K T := zpow_pos two_pos _
  have hu : (0 : K) ≤ ((2 : K) ^ T.t)⁻¹ := by positivity
  have hu1 : ((2 : K) ^ T.t)⁻¹ < 1 := unit_roundoff_lt (K := K) T.t ht
  have hhalf := C77_half_exact T.t ht a2 g.r hrt
  unfold sampleBilinearAtF at hz
  rw [hbi, Option.bind_some] at hz
  obtain ⟨y, hy⟩ := choose_values (fun s => dens s (g.toMap p)) fun s => hd s _
  obtain ⟨w, hw⟩ := choose_values _ (weightsF_mem hT g.r (g.toMap p) bi hbi)
  obtain ⟨x, e1, _, _, l1, l2, _⟩ := interpolationF_core hR hT hdt _ w hw _ y hy bi hb z hz
  refine ⟨fun c => st.abs.val c (generateIndex bi c), fun c => y (st.abs.val c (generateIndex bi c)), x, fun c hc => ⟨binContent_val hR hb hc, (hy _).1⟩, e1, ?_⟩
  set v := interpolationWeights bi (g.toMap p) (bundleResolutionInv g.r) with hvdef
  have hv : ∀ i, 0 ≤ v i ∧ v i ≤ 1 := by
    intro i
    have := frac_mem hr hin i
    rw [hvdef]
    unfold interpolationWeights
    split <;> constructor <;> linarith
  set δ : K := ((1 + ((2 : K) ^ T.t)⁻¹) ^ 2 * (1 + ((2 : K) ^ 53)⁻¹) - 1) * β + 2 * ((2 : K) ^ T.t)⁻¹ + 2 * halfSmallest K T with hδdef
  have hε : (1 + ((2 : K) ^ T.t)⁻¹) ^ 2 * (1 + ((2 : K) ^ 53)⁻¹) - 1 = (ieeeArith K T.t ht).eps := by
    show _ = (1 + ((2 : K) ^ T.t)⁻¹) * ((1 + ((2 : K) ^ T.t)⁻¹) * (1 + ((2 : K) ^ 53)⁻¹)) - 1
    ring
  have hwv : ∀ i, |w i - v i| ≤ δ := by
    intro i
    obtain ⟨q, b1, b2, b3, b4, b5, b6⟩ := positionF hT g.r (g.toMap p) bi hbi i
    have hq : q = T.nearest (g.toMap p i * bundleResolutionInvR (ieeeArith K T.t ht) g.r) := by
      rw [(C96_members hT ht g.r h1 h2).2] at b1
      have b1 : T.round (g.toMap p i * bundleResolutionInvR (ieeeArith K T.t ht) g.r) = .fin q := b1
      unfold Format.round at b1
      split at b1
      · cases b1; rfl
      · cases b1
    have c1 := nearest_toBits ht (g.toMap p i * bundleResolutionInvR (ieeeArith K T.t ht) g.r)
    rw [← hq] at c1
    have c2 := pos_err (ieeeArith K T.t ht) hr hhalf (g.toMap p i)
    have c3 : |g.toMap p i * (2 / g.r)| ≤ β := by
      refine le_trans (le_of_eq ?_) (hβ i)
      rw [abs_mul, abs_of_pos (show 0 < 2 / g.r by positivity)]; field_simp
    have c4 : |toBits T.t (g.toMap p i * bundleResolutionInvR (ieeeArith K T.t ht) g.r) - g.toMap p i * (2 / g.r)| ≤ (ieeeArith K T.t ht).eps * β :=
      le_trans c2 (mul_le_mul_of_nonneg_left c3 (Arith.eps_nonneg (ieeeArith K T.t ht)))
    obtain ⟨d1, d2⟩ := abs_le.1 c1
    obtain ⟨d3, d4⟩ := abs_le.1 c4
    obtain ⟨k1, hk1⟩ := b2.multiple
    obtain ⟨k2, hk2⟩ := b3.multiple
    obtain ⟨q1, q2, q3, _⟩ := nearest_unit hT b4 b5.le
    have f1 : T.nearest (q - bi i) = toBits T.t (q - bi i) := T.nearest_sum ht (k := k1 - k2) b4 (by push_cast; rw [sub_mul, ← hk1, ← hk2])
    have f2 := abs_le.1 (toBits_err T.t (q - bi i))
    rw [abs_of_nonneg b4, ← f1] at f2
    have f3 : ((2 : K) ^ T.t)⁻¹ * (q - bi i) ≤ ((2 : K) ^ T.t)⁻¹ := mul_le_of_le_one_right hu b5.le
    obtain ⟨k3, hk3⟩ := q3.multiple
    have h1F : InFormat T (1 : K) := by simpa using pow_inFormat (K := K) hT (n := 0) (by omega) (by omega)
    obtain ⟨k4, hk4⟩ := h1F.multiple
    have f4 : T.nearest (1 - T.nearest (q - bi i)) = toBits T.t (1 - T.nearest (q - bi i)) :=
      T.nearest_sum ht (k := k4 - k3) (by linarith) (by push_cast; rw [sub_mul, ← hk3, ← hk4])
    have f5 := abs_le.1 (toBits_err T.t (1 - T.nearest (q - bi i)))
    rw [abs_of_nonneg (by linarith), ← f4] at f5
    have f6 : ((2 : K) ^ T.t)⁻¹ * (1 - T.nearest (q - bi i)) ≤ ((2 : K) ^ T.t)⁻¹ := mul_le_of_le_one_right hu (by linarith)
    have hwi : w i = if bi i % 2 ≠ 0 then T.nearest (q - bi i) else T.nearest (1 - T.nearest (q - bi i)) := by
      have := (hw i).1
      rw [b6, Fl.fin.injEq] at this
      exact this.symm
    rw [hδdef, hε, hwi, hvdef]
    unfold interpolationWeights
    rw [bundleResolutionInv_eq']
    split <;> rw [abs_le] <;> constructor <;> linarith
  have hV : |(∑ c ∈ Finset.range (2 ^ d), interpolationWeight w c * y (st.abs.val c (generateIndex bi c))) -
      ∑ c ∈ Finset.range (2 ^ d), Spec.hat g.r c (generateIndex bi c) (g.toMap p) * y (st.abs.val c (generateIndex bi c))| ≤ d * δ := by
    have := interpolation_lipschitz K δ d w v (fun c => y (st.abs.val c (generateIndex bi c))) (fun i => (hw i).2.2) hv hwv (fun c => (hy _).2.2)
    simp only [← interpolationWeight_eq] at this
    have e : ∀ c, interpolationWeight v c = Spec.hat g.r c (generateIndex bi c) (g.toMap p) := fun c => C25_weight_is_hat hr bi (g.toMap p) hin c
    simp only [e] at this
    exact this
  have hW := fun c => (interpolationWeightF_bounds hT _ w hw c).1
  have hs := sum_interpolationWeight w
  have hV0 : 0 ≤ ∑ c ∈ Finset.range (2 ^ d), interpolationWeight w c * y (st.abs.val c (generateIndex bi c)) := Finset.sum_nonneg fun c _ => mul_nonneg (hW c) (hy _).2.2.1
  have hV1 : (∑ c ∈ Finset.range (2 ^ d), interpolationWeight w c * y (st.abs.val c (generateIndex bi c))) ≤ 1 :=
    le_trans (Finset.sum_le_sum fun c _ => mul_le_of_le_one_right (hW c) (hy _).2.2.2) (le_of_eq hs)
  have hM : (0 : K) ≤ 2 ^ d * ((d + 1) * halfSmallest K T) := by positivity
  generalize (∑ c ∈ Finset.range (2 ^ d), interpolationWeight w c * y (st.abs.val c (generateIndex bi c))) = V at *
  generalize (∑ c ∈ Finset.range (2 ^ d), Spec.hat g.r c (generateIndex bi c) (g.toMap p) * y (st.abs.val c (generateIndex bi c))) = H at *
  generalize (2 : K) ^ d * ((d + 1) * halfSmallest K T) = M at *
  generalize ((2 : K) ^ T.t)⁻¹ = u at *
  have p1 := one_add_mul_le_pow (show (-2 : K) ≤ u by linarith) (2 ^ d + 2 * d + 2)
  have p2 := one_add_mul_le_pow (show (-2 : K) ≤ -u by linarith) (2 ^ d + 2 * d + 2)
  rw [← sub_eq_add_neg, show 2 ^ d + 2 * d + 2 = (2 * d + 1) + (2 ^ d + 1) by ring, pow_add] at p2
  have p3 : (1 : K) ≤ (1 + u) ^ (2 ^ d + 2 * d + 2) := one_le_pow₀ (by linarith)
  have p4 : (1 - u) ^ (2 ^ d + 1) ≤ 1 := pow_le_one₀ (by linarith) (by linarith)
  have p5 : 0 ≤ (1 - u) ^ (2 ^ d + 1) := pow_nonneg (by linarith) _
  have hxV : |x - V| ≤ (1 + M) * (1 + u) ^ (2 ^ d + 2 * d + 2) - 1 := by
    have pe : (((2 ^ d + 2 * d + 2 : Nat)) : K) = (((2 * d + 1 + (2 ^ d + 1) : Nat)) : K) := by push_cast; ring
    rw [pe] at p1
    generalize (1 + u) ^ (2 ^ d + 2 * d + 2) = P at *
    generalize (1 - u) ^ (2 * d + 1) = Q1 at *
    generalize (1 - u) ^ (2 ^ d + 1) = Q2 at *
    generalize (((2 * d + 1 + (2 ^ d + 1) : Nat)) : K) = n at *
    have r1 : M * Q2 ≤ M := mul_le_of_le_one_right hM p4
    have r2 : M ≤ M * P := le_mul_of_one_le_right hM p3
    have r3 : V * (P - 1) ≤ P - 1 := mul_le_of_le_one_left (by linarith) hV1
    have r4 : V * (1 - Q1 * Q2) ≤ V * (P - 1) := mul_le_mul_of_nonneg_left (by linarith) hV0
    rw [abs_le]
    constructor <;> nlinarith
  calc |x - H| ≤ |x - V| + |V - H| := by
        have := abs_add_le (x - V) (V - H)
        rwa [sub_add_sub_cancel] at this
    _ ≤ _ := add_le_add hxV hV

/-- **C114.** An interpolated sample is positive only if the density of some bin of the point is. -/
theorem C114_bilinear_evidence {D : Type} [Inhabited D] (k : Kind d) (exp : D → Bool) (st : St k.backend D) (hR : MapReachable k exp st) (hT : T = .single ∨ T = .double) (hdt : d ≤ T.t)
    (g : Geo K d) (dens : D → Pt K d → Fl K) (hd : ∀ s q, UnitNumber T (dens s q)) (p : Pt K d) (bi : Idx d)
    (hbi : finiteIndexF T g.r (g.toMap p) = some bi) (x : K) (hv : sampleBilinearAtF T g k.dyn dens p st = some (.fin x)) (hx : 0 < x) :
    bi ∈ st.bundleIndices ∧ ∃ c s y, c < 2 ^ d ∧ st.binContent bi c = some s ∧ dens s (g.toMap p) = .fin y ∧ 0 < y := by
  unfold sampleBilinearAtF at hv
  rw [hbi, Option.bind_some] at hv
  by_cases hb : bi ∈ st.bundleIndices
  · obtain ⟨x', h1, _, _, _, _, h6⟩ := interpolationF_value hR hT hdt _ (weightsF_mem hT g.r (g.toMap p) bi hbi) _ (fun s => hd s _) 0 1
      (fun s y h => by
        obtain ⟨z, hz, _, z0, z1⟩ := hd s (g.toMap p)
        rw [hz, Fl.fin.injEq] at h
        rw [← h]; exact ⟨z0, z1⟩) bi hb _ hv
    cases h1
    obtain ⟨c, y, hc, hy, hp⟩ := h6 hx
    exact ⟨hb, c, _, y, hc, binContent_val hR hb hc, hy, hp⟩
  · have := (sampleWithF_value hR T _ _ bi _ hv).2 hb
    cases this
    exact absurd hx (lt_irrefl _)

omit [IsStrictOrderedRing K] in
/-- **C114.** An interpolated sample is NaN as soon as the density of some bin of the point is, whatever the weight of that bin, zero included. -/
theorem C114_bilinear_nan {D : Type} [Inhabited D] (k : Kind d) (exp : D → Bool) (st : St k.backend D) (hR : MapReachable k exp st) (T : Format)
    (g : Geo K d) (dens : D → Pt K d → Fl K) (p : Pt K d) (bi : Idx d) (hbi : finiteIndexF T g.r (g.toMap p) = some bi) (v : Fl K)
    (hv : sampleBilinearAtF T g k.dyn dens p st = some v) (hb : bi ∈ st.bundleIndices) (c : Nat) (s : D) (hc : c < 2 ^ d) (hs : st.binContent bi c = some s)
    (hn : dens s (g.toMap p) = .nan) : v = .nan := by
  unfold sampleBilinearAtF at hv
  rw [hbi, Option.bind_some] at hv
  rw [binContent_val hR hb hc, Option.some.injEq] at hs
  rw [(sampleWithF_value hR T _ _ bi v hv).1 hb]
  refine sumF_nan T _ c ?_ _ hc
  show Fl.mul _ (dens (st.abs.val c (generateIndex bi c)) (g.toMap p)) = .nan
  rw [hs, hn, Fl.mul_nanR]

/-! ### C114, occupancy maps -/

theorem occValueF_unit {W E : Type} (hT : T = .single ∨ T = .double) (dens : Multiset E → Pt K d → Fl K) (hd : ∀ s q, UnitNumber T (dens s q)) (occ : Occ W E → Fl K)
    (ho : ∀ o, UnitNumber T (occ o)) (p : Pt K d) (o : Occ W E) : UnitNumber T (occValueF T dens occ p o) := by
  unfold occValueF
  cases o.data with
  | none => exact ⟨0, rfl, ⟨⟨0, T.emin + 1 - T.t, by simp, le_rfl, by simp⟩, by simpa using zpow_pos (two_pos (α := K)) T.emax⟩, le_rfl, zero_le_one⟩
  | some s =>
    obtain ⟨y, e1, _, y0, y1⟩ := hd s p
    obtain ⟨z, e2, _, z0, z1⟩ := ho o
    obtain ⟨q1, q2, q3, q4⟩ := nearest_unit hT (mul_nonneg y0 z0) (mul_le_one₀ y1 z0 z1)
    refine ⟨T.nearest (y * z), ?_, q3, q1, q2⟩
    show T.conv (Fl.mul (dens s p) (occ o)) = _
    rw [e1, e2]
    exact q4

/-- **C114.** Samples of occupancy maps: if densities and occupancies are numbers from 0 to 1, then so is every sample. -/
theorem C114_occupancy_unit {W E M : Type} [Inhabited (Occ W E)] (k : Kind d) (exp : Occ W E → Bool) (st : St k.backend (Occ W E)) (hR : MapReachable k exp st)
    (hT : T = .single ∨ T = .double) (hdt : d ≤ T.t) (g : Geo K d) (dens : Multiset E → Pt K d → Fl K) (hd : ∀ s q, UnitNumber T (dens s q)) (occ : M → Occ W E → Fl K) (m : M)
    (ho : ∀ o, UnitNumber T (occ m o)) (p : Pt K d) (v : Fl K) (hv : occSampleNNAtF T g k.dyn dens occ p (some m) st = .ok (some v)) : UnitNumber T v := by
  unfold occSampleNNAtF at hv
  cases hbi : finiteIndexF T g.r (g.toMap p) with
  | none => rw [hbi] at hv; simp at hv
  | some bi =>
    rw [hbi] at hv
    simp only [Except.ok.injEq] at hv
    obtain ⟨y, hy⟩ := choose_values _ (occValueF_unit hT dens hd (occ m) ho (g.toMap p))
    by_cases hb : bi ∈ st.bundleIndices
    · obtain ⟨h1, h2, h3, h4, _⟩ := meanF_value hR hT (scalar_facts hT).1 hdt _ y bi hb (fun c _ => ⟨(hy _).1, (hy _).2.2⟩) v hv
      exact ⟨_, h1, h2, h3, h4⟩
    · refine ⟨0, (sampleWithF_value hR T _ _ bi v hv).2 hb, ?_, le_rfl, zero_le_one⟩
      exact ⟨⟨0, T.emin + 1 - T.t, by simp, le_rfl, by simp⟩, by simpa using zpow_pos (two_pos (α := K)) T.emax⟩

/-- **C114.** The same with interpolation: finite, not negative, and at most 1 up to roundings and underflow. -/
theorem C114_occupancy_bilinear {W E M : Type} [Inhabited (Occ W E)] (k : Kind d) (exp : Occ W E → Bool) (st : St k.backend (Occ W E)) (hR : MapReachable k exp st)
    (hT : T = .single ∨ T = .double) (hdt : d ≤ T.t) (g : Geo K d) (dens : Multiset E → Pt K d → Fl K) (hd : ∀ s q, UnitNumber T (dens s q)) (occ : M → Occ W E → Fl K) (m : M)
    (ho : ∀ o, UnitNumber T (occ m o)) (p : Pt K d) (v : Fl K) (hv : occSampleBilinearAtF T g k.dyn dens occ p (some m) st = .ok (some v)) :
    ∃ x, v = .fin x ∧ 0 ≤ x ∧ x ≤ (1 + 2 ^ d * ((d + 1) * halfSmallest K T)) * (1 + ((2 : K) ^ T.t)⁻¹) ^ (2 ^ d + 2 * d + 2) := by
  unfold occSampleBilinearAtF at hv
  cases hbi : finiteIndexF T g.r (g.toMap p) with
  | none => rw [hbi] at hv; simp at hv
  | some bi =>
    rw [hbi] at hv
    simp only [Except.ok.injEq] at hv
    have hf := occValueF_unit hT dens hd (occ m) ho (g.toMap p)
    by_cases hb : bi ∈ st.bundleIndices
    · obtain ⟨x, h1, _, h3, _, h5, _⟩ := interpolationF_value hR hT hdt _ (weightsF_mem hT g.r (g.toMap p) bi hbi) _ hf 0 1
        (fun s y h => by
          obtain ⟨z, hz, _, z0, z1⟩ := hf s
          rw [hz, Fl.fin.injEq] at h
          rw [← h]; exact ⟨z0, z1⟩) bi hb _ hv
      exact ⟨x, h1, h3, h5⟩
    · have hη : 0 < halfSmallest K T := zpow_pos two_pos _
      exact ⟨0, (sampleWithF_value hR T _ _ bi v hv).2 hb, le_rfl, by positivity⟩

omit [IsStrictOrderedRing K] in
/-- **C114.** A sample of an occupancy map, with or without interpolation, is NaN as soon as a bin of the point has a NaN density or occupancy. -/
theorem C114_occupancy_nan {W E M : Type} [Inhabited (Occ W E)] (k : Kind d) (exp : Occ W E → Bool) (st : St k.backend (Occ W E)) (hR : MapReachable k exp st)
    (T : Format) (g : Geo K d) (dens : Multiset E → Pt K d → Fl K) (occ : M → Occ W E → Fl K) (m : M) (p : Pt K d) (bi : Idx d) (hbi : finiteIndexF T g.r (g.toMap p) = some bi)
    (hb : bi ∈ st.bundleIndices) (c : Nat) (o : Occ W E) (s : Multiset E) (hc : c < 2 ^ d) (ho : st.binContent bi c = some o) (hs : o.data = some s)
    (hn : dens s (g.toMap p) = .nan ∨ occ m o = .nan) (v : Fl K)
    (hv : occSampleNNAtF T g k.dyn dens occ p (some m) st = .ok (some v) ∨ occSampleBilinearAtF T g k.dyn dens occ p (some m) st = .ok (some v)) : v = .nan := by
  have hval : occValueF T dens (occ m) (g.toMap p) (st.abs.val c (generateIndex bi c)) = .nan := by
    rw [binContent_val hR hb hc, Option.some.injEq] at ho
    unfold occValueF
    rw [ho, hs]
    show T.conv (Fl.mul (dens s (g.toMap p)) (occ m o)) = .nan
    rcases hn with h | h
    · rw [h]; rfl
    · rw [h, Fl.mul_nanR]; rfl
  unfold occSampleNNAtF occSampleBilinearAtF at hv
  rw [hbi] at hv
  simp only [Except.ok.injEq] at hv
  rcases hv with hv | hv <;>
  · rw [(sampleWithF_value hR T _ _ bi v hv).1 hb]
    refine sumF_nan T _ c ?_ _ hc
    show Fl.mul _ (occValueF T dens (occ m) (g.toMap p) (st.abs.val c (generateIndex bi c))) = .nan
    rw [hval, Fl.mul_nanR]

end
end Ndt
