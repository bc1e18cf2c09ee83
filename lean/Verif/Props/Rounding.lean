import Verif.Proofs.Rounding
import Verif.Proofs.GridmapMore
import Mathlib.Data.Rat.Floor
import Mathlib.Data.Fin.VecNotation
import Mathlib.Tactic.FinCases

/-! Property theorem C77: which bundle and which cells a point is recorded in when the quantisation is computed in floating point. -/

namespace Ndt
open St

section
variable {K : Type} [Field K] [LinearOrder K] [IsStrictOrderedRing K] [FloorRing K] {d : Nat}

/-! ### C77, one point -/

/-- **C77.** The bundle a point is recorded in contains the point up to a relative error of three roundings. -/
theorem C77_near_bundle (R : Arith K) (r : K) (hr : 0 < r) (hh : bundleResolutionR R r = r / 2) (p : Pt K d) (b : Idx d)
    (h : toBundleIndexR R r p = some b) : Spec.NearBundle ((1 + R.T.u) ^ 2 * (1 + R.D.u) - 1) r b p := by
  have hε : (1 + R.T.u) ^ 2 * (1 + R.D.u) - 1 = R.eps := by unfold Arith.eps; ring
  rw [hε]
  intro i
  obtain ⟨h1, _⟩ := (toBundleIndexR_eq_some R r p b).1 h i
  obtain ⟨h2, h3⟩ := Int.floor_eq_iff.1 h1
  have h4 := abs_le.1 (pos_err R hr hh (p i))
  have hp : (0 : K) < 2 / r := by positivity
  rw [abs_mul, abs_of_pos hp] at h4
  have hr2 : 0 < r / 2 := by positivity
  have e1 : p i = p i * (2 / r) * (r / 2) := by field_simp
  have e2 : R.eps * |p i| = R.eps * (|p i| * (2 / r)) * (r / 2) := by field_simp
  rw [e2]
  constructor
  · have : (b i : K) - R.eps * (|p i| * (2 / r)) ≤ p i * (2 / r) := by linarith
    have := mul_le_mul_of_nonneg_right this hr2.le
    rw [← e1] at this; linarith
  · have : p i * (2 / r) < (b i : K) + 1 + R.eps * (|p i| * (2 / r)) := by linarith
    have := mul_lt_mul_of_pos_right this hr2
    rw [← e1] at this; linarith

/-- **C77.** So do the cells of all overlapping grids it is recorded in. -/
theorem C77_near_cell (R : Arith K) (r : K) (hr : 0 < r) (hh : bundleResolutionR R r = r / 2) (p : Pt K d) (b : Idx d)
    (h : toBundleIndexR R r p = some b) (c : Nat) : Spec.NearCell ((1 + R.T.u) ^ 2 * (1 + R.D.u) - 1) r c (generateIndex b c) p := by
  intro i
  obtain ⟨h1, h2⟩ := C77_near_bundle R r hr hh p b h i
  generalize ((1 + R.T.u) ^ 2 * (1 + R.D.u) - 1) * |p i| = e at *
  have hk : generateIndex b c i = getIndexInner (b i) c i.1 := rfl
  generalize generateIndex b c i = k at *
  have := (getIndexInner_eq_iff (b i) k c i.1).1 hk.symm
  unfold Spec.shift
  by_cases hb : c.testBit i.1
  · simp only [hb, if_true] at this ⊢
    rcases this with h | h <;> (rw [h] at h1 h2; push_cast at h1 h2) <;> constructor <;> linarith
  · simp only [hb] at this ⊢
    simp at this ⊢
    rcases this with h | h <;> (rw [h] at h1 h2; push_cast at h1 h2) <;> constructor <;> linarith

/-- **C77.** A point that keeps that distance from the border of its bundle is recorded in the right bundle. -/
theorem C77_exact_inside (R : Arith K) (r : K) (hr : 0 < r) (hh : bundleResolutionR R r = r / 2) (p : Pt K d) (b : Idx d)
    (hb : ∀ i, -2147483648 ≤ b i ∧ b i < 2147483648) (h : Spec.WellInside ((1 + R.T.u) ^ 2 * (1 + R.D.u) - 1) r b p) :
    toBundleIndexR R r p = some b := by
  have hε : (1 + R.T.u) ^ 2 * (1 + R.D.u) - 1 = R.eps := by unfold Arith.eps; ring
  rw [hε] at h
  rw [toBundleIndexR_eq_some]
  intro i
  refine ⟨?_, hb i⟩
  rw [Int.floor_eq_iff]
  obtain ⟨h1, h2⟩ := h i
  have h4 := abs_le.1 (pos_err R hr hh (p i))
  have hp : (0 : K) < 2 / r := by positivity
  rw [abs_mul, abs_of_pos hp] at h4
  have e0 : ∀ x : K, x * (r / 2) * (2 / r) = x := fun x => by field_simp
  have g1 := mul_le_mul_of_nonneg_right h1 hp.le
  have g2 := mul_lt_mul_of_pos_right h2 hp
  rw [add_mul, e0] at g1
  rw [sub_mul, e0] at g2
  constructor <;> linarith

/-- **C77.** Quantisation is monotone: the points recorded in one bundle form a box, up to points that no map receives. -/
theorem C77_monotone (R : Arith K) (r : K) (hr : 0 < r) (p q : Pt K d) (b b' : Idx d) (h : toBundleIndexR R r p = some b)
    (h' : toBundleIndexR R r q = some b') (i : Fin d) (hpq : p i ≤ q i) : b i ≤ b' i := by
  rw [← ((toBundleIndexR_eq_some R r p b).1 h i).1, ← ((toBundleIndexR_eq_some R r q b').1 h' i).1]
  exact Int.floor_le_floor (R.T.mono _ _ (mul_le_mul_of_nonneg_right hpq (inv_nonneg R hr)))

/-- **C77.** As long as the error is below the edge of a bundle, the recorded bundle is the right one or a direct neighbour of it. -/
theorem C77_adjacent (R : Arith K) (r : K) (hr : 0 < r) (hh : bundleResolutionR R r = r / 2) (p : Pt K d) (b b' : Idx d)
    (h : toBundleIndexR R r p = some b) (h' : Spec.InBundle r b' p) (i : Fin d) (hs : ((1 + R.T.u) ^ 2 * (1 + R.D.u) - 1) * |p i| < r / 2) :
    |b i - b' i| ≤ 1 := by
  obtain ⟨h1, h2⟩ := C77_near_bundle R r hr hh p b h i
  obtain ⟨h3, h4⟩ := h' i
  have hr2 : 0 < r / 2 := by positivity
  have a1 : (b i : K) * (r / 2) < ((b' i : K) + 2) * (r / 2) := by linarith
  have a2 : (b' i : K) * (r / 2) < ((b i : K) + 2) * (r / 2) := by linarith
  have b1 := lt_of_mul_lt_mul_right a1 hr2.le
  have b2 := lt_of_mul_lt_mul_right a2 hr2.le
  have c1 : b i < b' i + 2 := by exact_mod_cast b1
  have c2 : b' i < b i + 2 := by exact_mod_cast b2
  rw [abs_le]; omega

/-- **C77.** A point too far away (2^31 bundles and the error) has no index: inserting it, or looking it up, is undefined on every map. -/
theorem C77_overflow (R : Arith K) (r : K) (hr : 0 < r) (hh : bundleResolutionR R r = r / 2) (p : Pt K d) (i : Fin d)
    (h : 2147483648 * (r / 2) + ((1 + R.T.u) ^ 2 * (1 + R.D.u) - 1) * |p i| ≤ p i) : toBundleIndexR R r p = none := by
  cases hb : toBundleIndexR R r p with
  | none => rfl
  | some b =>
    exfalso
    obtain ⟨_, h2⟩ := C77_near_bundle R r hr hh p b hb i
    have h3 := ((toBundleIndexR_eq_some R r p b).1 hb i).2.2
    have h4 : (b i : K) + 1 ≤ 2147483648 := by exact_mod_cast h3
    have h5 := mul_le_mul_of_nonneg_right h4 (by positivity : 0 ≤ r / 2)
    linarith

/-! ### C77, IEEE arithmetic -/

/-- A map whose scalar type has `t` significant bits; `double` has 53. -/
def ieeeArith (K : Type) [Field K] [LinearOrder K] [IsStrictOrderedRing K] [FloorRing K] (t : Nat) (ht : 1 ≤ t) : Arith K :=
  { T := ieee K t ht, D := ieee K 53 (by decide) }

theorem toBits_more {t t' : Nat} (h : t ≤ t') {x : K} (hx : toBits t x = x) : toBits t' x = x := by
  have pos : ∀ x : K, 0 < x → toBits t x = x → toBits t' x = x := by
    intro x h0 hx
    have hl := lastBit_pos t x
    have hl' := lastBit_pos t' x
    have e : lastBit t x = lastBit t' x * (2 : K) ^ ((t' : Int) - t) := by
      rw [lastBit_scale]; unfold lastBit; congr 1; ring
    have e1 : x / lastBit t' x = ((nearestEven (x / lastBit t x) * 2 ^ (t' - t) : Int) : K) := by
      have : x = (nearestEven (x / lastBit t x) : K) * lastBit t x := by
        conv_lhs => rw [← hx]
        unfold toBits
        rw [if_neg (not_lt.2 h0.le)]
      rw [div_eq_iff hl'.ne']
      push_cast
      have e3 : (2 : K) ^ (t' - t) = (2 : K) ^ ((t' : Int) - t) := by rw [← zpow_natCast]; congr 1; omega
      rw [e3]
      conv_lhs => rw [this, e]
      rw [← e, e]; ring
    unfold toBits
    rw [if_neg (not_lt.2 h0.le), e1, nearestEven_int, ← e1, div_mul_cancel₀ _ hl'.ne']
  rcases lt_trichotomy x 0 with h0 | h0 | h0
  · have := pos (-x) (by linarith) (by rw [toBits_neg, hx])
    rw [toBits_neg] at this
    exact neg_injective this
  · subst h0; exact toBits_zero t'
  · exact pos x h0 hx

/-- **C77.** The hypothesis on the halved resolution holds for every resolution that is a value of the scalar type. -/
theorem C77_half_exact (t : Nat) (ht : 1 ≤ t) (h53 : t ≤ 53) (r : K) (h : toBits t r = r) : bundleResolutionR (ieeeArith K t ht) r = r / 2 := by
  show toBits t (toBits 53 (1 / 2 * r)) = r / 2
  have e : (1 : K) / 2 * r = r * (2 : K) ^ (-1 : Int) := by rw [zpow_neg, zpow_one]; ring
  rw [e, toBits_scale, toBits_more h53 h, toBits_scale, h, zpow_neg, zpow_one]; ring

/-- **C77.** The relative error is below `2^-22` for `float` and below `2^-51` for `double`. -/
theorem C77_epsilon :
    (1 + (ieeeArith K 24 (by decide)).T.u) ^ 2 * (1 + (ieeeArith K 24 (by decide)).D.u) - 1 < ((2 : K) ^ 22)⁻¹ ∧
    (1 + (ieeeArith K 53 (by decide)).T.u) ^ 2 * (1 + (ieeeArith K 53 (by decide)).D.u) - 1 < ((2 : K) ^ 51)⁻¹ := by
  constructor <;> (show (1 + ((2 : K) ^ _)⁻¹) ^ 2 * (1 + ((2 : K) ^ _)⁻¹) - 1 < _) <;> norm_num

/-- **C77.** If the resolution is a power of two, every point of the scalar type is recorded in exactly the bundle that contains it. -/
theorem C77_exact_power_of_two (t : Nat) (ht : 1 ≤ t) (n : Int) (p : Pt K d) (hp : ∀ i, toBits t (p i) = p i) (b : Idx d)
    (hb : ∀ i, -2147483648 ≤ b i ∧ b i < 2147483648) :
    toBundleIndexR (ieeeArith K t ht) ((2 : K) ^ n) p = some b ↔ Spec.InBundle ((2 : K) ^ n) b p := by
  have e0 : (1 : K) / 2 * (2 : K) ^ n = (2 : K) ^ (n - 1) := by rw [zpow_sub₀ two_ne_zero, zpow_one]; ring
  have e1 : bundleResolutionR (ieeeArith K t ht) ((2 : K) ^ n) = (2 : K) ^ (n - 1) := by
    show toBits t (toBits 53 (1 / 2 * (2 : K) ^ n)) = _
    rw [e0, toBits_two_pow 53 (by decide), toBits_two_pow t ht]
  have e2 : bundleResolutionInvR (ieeeArith K t ht) ((2 : K) ^ n) = (2 : K) ^ (1 - n) := by
    unfold bundleResolutionInvR
    rw [e1]
    show toBits t (toBits 53 _) = _
    rw [one_div, ← zpow_neg, neg_sub, toBits_two_pow 53 (by decide), toBits_two_pow t ht]
  have hpos : (0 : K) < (2 : K) ^ n := zpow_pos two_pos n
  have e3 : (2 : K) ^ (1 - n) = 2 / (2 : K) ^ n := by rw [zpow_sub₀ two_ne_zero, zpow_one]
  rw [← toBundleIndex_spec hpos, toBundleIndexR_eq_some]
  have key : ∀ i, ⌊(ieeeArith K t ht).T.rnd (p i * bundleResolutionInvR (ieeeArith K t ht) ((2 : K) ^ n))⌋ = toBundleIndex ((2 : K) ^ n) p i := by
    intro i
    show ⌊toBits t _⌋ = _
    rw [e2, toBits_scale, hp i, e3]
    unfold toBundleIndex
    rw [bundleResolutionInv_eq]
  constructor
  · intro h; funext i; rw [← key, (h i).1]
  · rintro h i; exact ⟨by rw [key, h], hb i⟩

/-! ### C77, maps -/

omit [IsStrictOrderedRing K] in
theorem hasBundle_iff (D : Type) [Inhabited D] (k : Kind d) (b : Idx d) : (k.init D).abs.valid k.dyn b = true ↔ Spec.HasBundle k b := by
  cases k with
  | dynamic g g' => exact iff_of_true rfl trivial
  | static size lo =>
    show ((Kind.static size lo).init D).abs.valid false _ = true ↔ _
    rw [Kind.static_valid]
    rfl

omit [IsStrictOrderedRing K] in
open scoped Classical in
theorem accOpsR_eq (R : Arith K) (g : Geo K d) (k : Kind d) : ∀ ops : List (GridOp K d),
    (∀ p ∈ Spec.offered g ops, (toBundleIndexR R g.r p).isSome) →
    ((accOpsR R g ((k.init (Multiset (Pt K d))).abs.valid k.dyn) ops : List (Pt K d)) : Multiset (Pt K d)) =
      (Spec.offered g ops).filter fun p => ∃ b, toBundleIndexR R g.r p = some b ∧ Spec.HasBundle k b
  | [], _ => rfl
  | .insert pose cloud :: l, h => by
    simp only [accOpsR, Spec.offered, ← Multiset.coe_add, Multiset.filter_add]
    rw [accOpsR_eq R g k l fun p hp => h p (by simp only [Spec.offered]; exact Multiset.mem_add.2 (Or.inr hp))]
    refine congrArg (· + _) ?_
    unfold accListR
    rw [Multiset.filter_coe]
    refine congrArg _ (List.filter_congr fun p hp => ?_)
    rw [Bool.eq_iff_iff, hasBundle_iff, decide_eq_true_iff]
    obtain ⟨b, hb⟩ := Option.isSome_iff_exists.1 (h p (by simp only [Spec.offered]; exact Multiset.mem_add.2 (Or.inl hp)))
    rw [idxR_of_some hb, hb]
    simp
  | .core _ :: l, h => accOpsR_eq R g k l h

theorem offered_defined {B : Backend d} (L : B.Lawful) (R : Arith K) (g : Geo K d) (dyn : Bool) (exp : Multiset (Pt K d) → Bool) : ∀ (ops : List (GridOp K d))
    (st st' : St B (Multiset (Pt K d))), RInv L dyn st → gridRunR R g dyn exp ops st = some st' →
    ∀ p ∈ Spec.offered g ops, (toBundleIndexR R g.r p).isSome
  | [], _, _, _, _ => by intro p hp; exact absurd hp (Multiset.notMem_zero p)
  | op :: ops, st, st', hI, h => by
    simp only [gridRunR] at h
    obtain ⟨st1, h1, h2⟩ := Option.bind_eq_some_iff.1 h
    cases op with
    | insert pose cloud =>
      obtain ⟨a1, _, _, _, a5⟩ := gridInsertR_spec L R g dyn pose cloud st st1 hI h1
      intro p hp
      simp only [Spec.offered] at hp
      rcases Multiset.mem_add.1 hp with hp | hp
      · obtain ⟨q, hq, rfl⟩ := List.mem_map.1 (Multiset.mem_coe.1 hp)
        obtain ⟨hq, hn⟩ := List.mem_filter.1 hq
        obtain ⟨q', hq', rfl⟩ := List.mem_map.1 hq
        exact a5 q' hq' hn
      · exact offered_defined L R g dyn exp ops st1 st' a1 h2 p hp
    | core op =>
      obtain ⟨a1, _⟩ := coreStep_spec L dyn exp op st hI st1 h1
      exact offered_defined L R g dyn exp ops st1 st' a1 h2

open scoped Classical in
/-- **C77.** Contents are exact with respect to the computed indices: after any history the distribution of grid `c` at index `i` contains exactly the offered points whose computed
bundle exists in the map and overlaps that cell. With `C77_near_cell` and `C77_exact_inside` this determines the contents up to points next to a border. -/
theorem C77_contents (k : Kind d) (R : Arith K) (g : Geo K d) (exp : Multiset (Pt K d) → Bool) (ops : List (GridOp K d))
    (st : St k.backend (Multiset (Pt K d))) (h : gridRunR R g k.dyn exp ops (k.init _) = some st) (c : Nat) (hc : c < 2 ^ d) (i : Idx d) :
    (st.content c i).getD 0 =
      (Spec.offered g ops).filter fun p => ∃ b, toBundleIndexR R g.r p = some b ∧ Spec.HasBundle k b ∧ generateIndex b c = i := by
  obtain ⟨_, _, h3, h4⟩ := gridRunR_spec k.lawful R g k.dyn exp ops _ st k.init_rinv h
  have hdef := offered_defined k.lawful R g k.dyn exp ops _ st k.init_rinv h
  have e := h3 c hc i
  have e0 : (k.init (Multiset (Pt K d))).abs.val c i = 0 := by unfold Abs.val; rw [Kind.init_content]; rfl
  rw [e0, zero_add] at e
  refine Eq.trans (show _ = st.abs.val c i from rfl) (e.trans ?_)
  rw [← Multiset.filter_coe, accOpsR_eq R g k ops hdef, Multiset.filter_filter]
  refine Multiset.filter_congr fun p hp => ?_
  obtain ⟨b, hb⟩ := Option.isSome_iff_exists.1 (hdef p hp)
  rw [idxR_of_some hb, hb]
  simp [and_comm]

open scoped Classical in
/-- **C77.** Every grid conserves the mass: the sample counts in grid `c` sum to the number of offered points whose computed bundle exists in the map. -/
theorem C77_mass (k : Kind d) (R : Arith K) (g : Geo K d) (exp : Multiset (Pt K d) → Bool) (ops : List (GridOp K d))
    (st : St k.backend (Multiset (Pt K d))) (h : gridRunR R g k.dyn exp ops (k.init _) = some st) (c : Nat) (hc : c < 2 ^ d) :
    ((k.backend.traverse (st.storage c)).map fun e => (st.heap e.2).card).sum =
      ((Spec.offered g ops).filter fun p => ∃ b, toBundleIndexR R g.r p = some b ∧ Spec.HasBundle k b).card := by
  obtain ⟨hI, _, h3, h4⟩ := gridRunR_spec k.lawful R g k.dyn exp ops _ st k.init_rinv h
  have hdef := offered_defined k.lawful R g k.dyn exp ops _ st k.init_rinv h
  rw [← accOpsR_eq R g k ops hdef, Multiset.coe_card]
  have key : ∀ e ∈ k.backend.traverse (st.storage c), (st.heap e.2).card =
      ((accOpsR R g ((k.init (Multiset (Pt K d))).abs.valid k.dyn) ops).filter
        (fun p => decide (generateIndex (idxR R g.r p) c = e.1))).length := by
    rintro ⟨i, a⟩ he
    have hd : st.dist c i = some a := (k.lawful.mem_traverse _ (hI.inv.store c) i a).1 he
    have e := h3 c hc i
    have e0 : (k.init (Multiset (Pt K d))).abs.val c i = 0 := by unfold Abs.val; rw [Kind.init_content]; rfl
    rw [e0, zero_add] at e
    have hv : st.abs.val c i = st.heap a := by
      show (st.content c i).getD _ = _
      unfold content; rw [hd]; rfl
    rw [hv] at e
    rw [e, Multiset.coe_card]
  rw [List.map_congr_left key]
  have hmm : ((k.backend.traverse (st.storage c)).map fun e =>
        ((accOpsR R g ((k.init (Multiset (Pt K d))).abs.valid k.dyn) ops).filter
          (fun p => decide (generateIndex (idxR R g.r p) c = e.1))).length) =
      ((k.backend.traverse (st.storage c)).map Prod.fst).map fun i =>
        ((accOpsR R g ((k.init (Multiset (Pt K d))).abs.valid k.dyn) ops).filter
          (fun p => decide (generateIndex (idxR R g.r p) c = i))).length := by
    rw [List.map_map]; rfl
  rw [hmm]
  refine sum_card_filter (fun p => generateIndex (idxR R g.r p) c) _ _ (k.lawful.nodup_traverse _ (hI.inv.store c)) ?_
  intro p hp
  have hal := (h4 p hp).1
  have hsome := (hI.ainv.used c (generateIndex (idxR R g.r p) c)).2 ⟨hc, _, hal, rfl⟩
  obtain ⟨x, hx⟩ := Option.isSome_iff_exists.1 hsome
  have hx' : st.content c (generateIndex (idxR R g.r p) c) = some x := hx
  unfold content at hx'
  obtain ⟨a, ha, _⟩ := Option.map_eq_some_iff.1 hx'
  exact List.mem_map.2 ⟨(_, a), (k.lawful.mem_traverse _ (hI.inv.store c) _ a).2 ha, rfl⟩

/-- **C77 (partial).** Whatever the rounding, a stored point lies in the cell of its distribution up to the relative error. Missing: exact containment (C10), refuted below. -/
theorem C77_stored_near_partial (k : Kind d) (R : Arith K) (g : Geo K d) (hr : 0 < g.r) (hh : bundleResolutionR R g.r = g.r / 2)
    (exp : Multiset (Pt K d) → Bool) (ops : List (GridOp K d)) (st : St k.backend (Multiset (Pt K d)))
    (h : gridRunR R g k.dyn exp ops (k.init _) = some st) (c : Nat) (hc : c < 2 ^ d) (i : Idx d) (s : Multiset (Pt K d)) (hs : st.content c i = some s)
    (p : Pt K d) (hp : p ∈ s) : p ∈ Spec.offered g ops ∧ Spec.NearCell ((1 + R.T.u) ^ 2 * (1 + R.D.u) - 1) g.r c i p := by
  classical
  have e := C77_contents k R g exp ops st h c hc i
  rw [hs, Option.getD_some] at e
  rw [e, Multiset.mem_filter] at hp
  obtain ⟨ho, b, hb, _, rfl⟩ := hp
  exact ⟨ho, C77_near_cell R g.r hr hh p b hb c⟩

/-- **C77.** Insertion and lookup agree: after any history, looking up the place of any offered point (whose computed bundle exists) gives a bundle all of whose distributions
contain the point. -/
theorem C77_lookup (k : Kind d) (R : Arith K) (g : Geo K d) (exp : Multiset (Pt K d) → Bool) (ops : List (GridOp K d))
    (st : St k.backend (Multiset (Pt K d))) (h : gridRunR R g k.dyn exp ops (k.init _) = some st) (pw : Pt K d)
    (ho : g.toMap pw ∈ Spec.offered g ops) (bi : Idx d) (hbi : toBundleIndexR R g.r (g.toMap pw) = some bi) (hk : Spec.HasBundle k bi) :
    ∃ b, lookupR R g k.dyn pw st = some (some b) ∧ ∀ c, c < 2 ^ d → ∃ a, b.data c = some a ∧ g.toMap pw ∈ st.heap a := by
  classical
  obtain ⟨hI, hkeep, h3, h4⟩ := gridRunR_spec k.lawful R g k.dyn exp ops _ st k.init_rinv h
  have hdef := offered_defined k.lawful R g k.dyn exp ops _ st k.init_rinv h
  have hmem : g.toMap pw ∈ accOpsR R g ((k.init (Multiset (Pt K d))).abs.valid k.dyn) ops := by
    rw [← Multiset.mem_coe, accOpsR_eq R g k ops hdef, Multiset.mem_filter]
    exact ⟨ho, bi, hbi, hk⟩
  have hal := (h4 _ hmem).1
  rw [idxR_of_some hbi, mem_allocated_iff] at hal
  obtain ⟨b, hb⟩ := Option.isSome_iff_exists.1 hal
  have hok : k.backend.ok st.bundles bi = true := by
    unfold bundle Backend.look at hb; split at hb
    · assumption
    · cases hb
  have hget : k.backend.get st.bundles bi = some b := by rw [← look_of_ok k.backend _ _ hok]; exact hb
  have hvalid : st.valid k.dyn bi = true := (hkeep.valid bi).trans ((hasBundle_iff _ k bi).2 hk)
  refine ⟨b, ?_, ?_⟩
  · unfold lookupR
    rw [hbi, Option.bind_some]
    unfold getBundle
    rw [if_pos hvalid, if_pos hok, hget]
  · intro c hc
    obtain ⟨a, h1, h2⟩ := hI.inv.complete bi b hb c hc
    refine ⟨a, h1, ?_⟩
    have e := C77_contents k R g exp ops st h c hc (generateIndex bi c)
    unfold content at e
    rw [h2] at e
    have e' : st.heap a = _ := e
    rw [e', Multiset.mem_filter]
    exact ⟨ho, bi, hbi, hk, rfl⟩

end

/-! ### C77, relation to exact arithmetic -/

section
variable {K : Type} [Field K] [LinearOrder K] [IsStrictOrderedRing K] [FloorRing K] {d : Nat}

/-- no rounding -/
def exactArith (K : Type) [Field K] [LinearOrder K] [IsStrictOrderedRing K] : Arith K :=
  let R : Rounding K := { rnd := id, u := 0, nonneg := le_refl _, mono := fun _ _ h => h, err := fun x => by simp }
  { T := R, D := R }

theorem exact_index {r : K} {p : Pt K d} {b : Idx d} (h : toBundleIndexR (exactArith K) r p = some b) : toBundleIndex r p = b := by
  funext i
  exact ((toBundleIndexR_eq_some _ r p b).1 h i).1

/-- **C77.** Without rounding the model of this file is the one of all other files, restricted to indices in the range of `int`. -/
theorem C77_without_rounding {B : Backend d} (g : Geo K d) (dyn : Bool) (exp : Multiset (Pt K d) → Bool) : ∀ (ops : List (GridOp K d))
    (st st' : St B (Multiset (Pt K d))), gridRunR (exactArith K) g dyn exp ops st = some st' → gridRun g dyn exp ops st = some st'
  | [], _, _, h => h
  | op :: ops, st, st', h => by
    simp only [gridRunR] at h
    obtain ⟨st1, h1, h2⟩ := Option.bind_eq_some_iff.1 h
    have ih := C77_without_rounding g dyn exp ops st1 st' h2
    have key : gridStep g dyn exp op st = some st1 := by
      cases op with
      | core op => exact h1
      | insert pose cloud =>
        simp only [gridStepR, gridInsertR] at h1
        obtain ⟨u, hu, h1⟩ := Option.bind_eq_some_iff.1 h1
        obtain ⟨hu', hdef⟩ := collectR_eq _ g _ pose u cloud [] hu
        have hidx : ∀ p ∈ ((cloud.map pose).filter (fun p => g.normal p)).map g.toMap, idxR (exactArith K) g.r p = toBundleIndex g.r p := by
          intro p hp
          obtain ⟨q, hq, rfl⟩ := List.mem_map.1 hp
          obtain ⟨hq, hn⟩ := List.mem_filter.1 hq
          obtain ⟨q', hq', rfl⟩ := List.mem_map.1 hq
          obtain ⟨b, hb⟩ := Option.isSome_iff_exists.1 (hdef q' hq' hn)
          rw [idxR_of_some hb, exact_index hb]
        have hacc : accListR (exactArith K) g (st.valid dyn) pose cloud = accList g (st.valid dyn) pose cloud := by
          unfold accListR accList
          exact List.filter_congr fun p hp => by rw [hidx p hp]
        have hcol : collect g (st.valid dyn) pose cloud = u := by
          rw [collect_eq, hu', hacc]
          have aux : ∀ (l : List (Pt K d)) (v : List (Idx d × Multiset (Pt K d))), (∀ p ∈ l, idxR (exactArith K) g.r p = toBundleIndex g.r p) →
              l.foldl (fun u p => upsert 0 (fun s => s + {p}) (toBundleIndex g.r p) u) v =
                l.foldl (fun u p => upsert 0 (fun s => s + {p}) (idxR (exactArith K) g.r p) u) v := by
            intro l
            induction l with
            | nil => intro v _; rfl
            | cons p l ih =>
              intro v hl
              rw [List.foldl_cons, List.foldl_cons, hl p (List.mem_cons_self ..)]
              exact ih _ fun q hq => hl q (List.mem_cons_of_mem _ hq)
          exact aux _ _ fun p hp => hidx p (List.mem_filter.1 hp).1
        simp only [gridStep, gridInsert]
        rw [hcol]
        exact h1
    simp only [gridRun]
    rw [key]
    exact ih

end

/-! ### C77, a map of floats with resolution 0.1 -/

/-- `0.1f`, the float next to 0.1 -/
def tenth : ℚ := 13421773 / 134217728

def tenthGeo : Geo ℚ 2 := { r := tenth, toMap := id, normal := fun _ => true }

abbrev float32 : Arith ℚ := ieeeArith ℚ 24 (by decide)

/-- Non-vacuity of the hypotheses: 0.1f is a float, is rounded from 1/10, and its half is exact. -/
example : toBits 24 (1 / 10 : ℚ) = tenth ∧ toBits 24 tenth = tenth := by decide +kernel
theorem tenth_half : bundleResolutionR float32 tenth = tenth / 2 := C77_half_exact 24 (by decide) (by decide) tenth (by decide +kernel)

/-- Non-vacuity of `C77_near_bundle`, `C77_exact_inside` and `C77_monotone`: two floats, one on a border and one well inside of a bundle. -/
example : toBundleIndexR float32 tenth ![1 / 4, -3 / 8] = some ![5, -8] ∧ toBundleIndexR float32 tenth ![5 / 8, 9 / 32] = some ![12, 5] := by decide +kernel
example : Spec.WellInside (((2 : ℚ) ^ 22)⁻¹) tenth ![12, 5] ![5 / 8, 9 / 32] := by
  intro i; fin_cases i <;> norm_num [tenth]
example : Spec.NearBundle (((2 : ℚ) ^ 22)⁻¹) tenth ![5, -8] ![1 / 4, -3 / 8] ∧ ¬ Spec.InBundle tenth ![5, -8] ![1 / 4, -3 / 8] := by
  refine ⟨fun i => by fin_cases i <;> norm_num [tenth], fun h => absurd (h 0).1 (by norm_num [tenth])⟩

/-- Non-vacuity of `C77_adjacent`. -/
example : ((1 + float32.T.u) ^ 2 * (1 + float32.D.u) - 1) * |(1 / 4 : ℚ)| < tenth / 2 := by decide +kernel

/-- Non-vacuity of `C77_exact_power_of_two`: resolution 1/4, a float coordinate. -/
example : toBundleIndexR float32 ((2 : ℚ) ^ (-2 : Int)) (![13421773 / 134217728] : Pt ℚ 1) = some ![0] ∧ toBits 24 (13421773 / 134217728 : ℚ) = 13421773 / 134217728 := by
  decide +kernel

theorem float_point_index : toBundleIndexR float32 tenthGeo.r (![1 / 4, 1 / 4] : Pt ℚ 2) = some ![5, 5] := by decide +kernel

/-- The point is inserted into any map of that resolution that covers the bundle. -/
theorem float_point_runs (k : Kind 2) (exp : Multiset (Pt ℚ 2) → Bool) (hk : (k.init (Multiset (Pt ℚ 2))).abs.Good ![5, 5]) :
    ∃ st, gridRunR float32 tenthGeo k.dyn exp [.insert id [![1 / 4, 1 / 4]]] (k.init _) = some st := by
  obtain ⟨st, hst⟩ := gridInsertR_total k.lawful float32 tenthGeo k.dyn id [![1 / 4, 1 / 4]] (k.init _) k.init_rinv
    (by
      intro p hp _
      rw [List.mem_singleton] at hp
      subst hp
      exact Option.isSome_of_eq_some float_point_index)
    (by
      intro p hp
      have hp' : p = ![1 / 4, 1 / 4] := by
        have := (List.mem_filter.1 hp).1
        simpa [tenthGeo] using this
      rw [hp', idxR_of_some float_point_index]
      exact hk)
  exact ⟨st, by simp only [gridRunR, gridStepR, hst]; rfl⟩

/-- **C77 (refuted part).** Exact containment (C10) fails in a map of floats with resolution 0.1: the float (0.25, 0.25) is stored in the cell `(3, 3)` of grid 3, which begins
beyond it. -/
theorem C77_exact_cell_refuted (g : Nat → Nat) (g' : Nat) (exp : Multiset (Pt ℚ 2) → Bool) :
    ∃ st, gridRunR float32 tenthGeo true exp [.insert id [![1 / 4, 1 / 4]]] ((Kind.dynamic (d := 2) g g').init _) = some st ∧
      ∃ s, st.content 3 ![3, 3] = some s ∧ ![1 / 4, 1 / 4] ∈ s ∧ ¬ Spec.InCell tenthGeo.r 3 ![3, 3] (![1 / 4, 1 / 4] : Pt ℚ 2) ∧
        ∀ i, toBits 24 ((![1 / 4, 1 / 4] : Pt ℚ 2) i) = (![1 / 4, 1 / 4] : Pt ℚ 2) i := by
  classical
  obtain ⟨st, hst⟩ := float_point_runs (Kind.dynamic g g') exp (dynamic_good _ g g' _ (by unfold Spec.InRange; decide))
  refine ⟨st, hst, ?_⟩
  have e := C77_contents (Kind.dynamic g g') float32 tenthGeo exp _ st hst 3 (by decide) ![3, 3]
  have hm : ![1 / 4, 1 / 4] ∈ (st.content 3 ![3, 3]).getD 0 := by
    rw [e, Multiset.mem_filter]
    refine ⟨?_, ![5, 5], float_point_index, trivial, by decide⟩
    simp [Spec.offered, tenthGeo]
  cases hx : st.content 3 ![3, 3] with
  | none => rw [hx] at hm; exact absurd hm (Multiset.notMem_zero _)
  | some s =>
    rw [hx] at hm
    refine ⟨s, rfl, hm, fun h => absurd (h 0).1 ?_, ?_⟩
    · have : Nat.testBit 3 0 = true := by decide
      simp [Spec.shift, this, tenthGeo, tenth]; norm_num
    · intro i; fin_cases i <;> decide +kernel

/-- **C77 (refuted part).** A static map accepts a point outside of its region. -/
theorem C77_region_refuted (exp : Multiset (Pt ℚ 2) → Bool) :
    ∃ st, gridRunR float32 tenthGeo false exp [.insert id [![1 / 4, 1 / 4]]] ((Kind.static ![2, 2] ![5, 5]).init _) = some st ∧
      (((arrayBackend 2).traverse (st.storage 0)).map fun e => (st.heap e.2).card).sum = 1 ∧
      ¬ Spec.Region tenthGeo.r (.static ![2, 2] ![5, 5]) (![1 / 4, 1 / 4] : Pt ℚ 2) := by
  classical
  obtain ⟨st, hst⟩ := float_point_runs (Kind.static ![2, 2] ![5, 5]) exp (by
    refine ⟨by decide +kernel, fun c hc => ?_⟩
    have : ∀ c < 2 ^ 2, ((Kind.static ![2, 2] ![5, 5]).init (Multiset (Pt ℚ 2))).abs.okD c (generateIndex ![5, 5] c) = true := by decide +kernel
    exact this c hc)
  refine ⟨st, hst, ?_, fun h => absurd (h 0).1 (by norm_num [tenthGeo, tenth])⟩
  have e := C77_mass (Kind.static ![2, 2] ![5, 5]) float32 tenthGeo exp _ st hst 0 (by decide)
  refine e.trans ?_
  rw [Multiset.filter_eq_self.2]
  · simp [Spec.offered, tenthGeo]
  · intro p hp
    have hp' : p = ![1 / 4, 1 / 4] := by simpa [Spec.offered, tenthGeo] using hp
    rw [hp']
    exact ⟨![5, 5], float_point_index, by intro a; fin_cases a <;> simp⟩

end Ndt
