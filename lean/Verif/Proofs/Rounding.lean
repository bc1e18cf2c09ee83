import Verif.Model.Rounding
import Verif.Spec.Rounded
import Verif.Proofs.Gridmap
import Verif.Proofs.Index
import Mathlib.Tactic.Linarith
import Mathlib.Tactic.Ring
import Mathlib.Tactic.FieldSimp
import Mathlib.Tactic.Positivity
import Mathlib.Tactic.NormNum

/-! Rounded arithmetic: IEEE rounding is a rounding in the sense of the model; error of the quantisation; refinement of insertion with rounded quantisation. -/

namespace Ndt

section ieee
variable {K : Type} [Field K] [LinearOrder K] [IsStrictOrderedRing K] [FloorRing K]

theorem nearestEven_bounds (y : K) : ⌊y⌋ ≤ nearestEven y ∧ nearestEven y ≤ ⌊y⌋ + 1 := by
  unfold nearestEven
  split
  · omega
  · split
    · omega
    · split <;> omega

theorem nearestEven_int (n : Int) : nearestEven (n : K) = n := by
  unfold nearestEven
  rw [Int.floor_intCast, if_pos]
  rw [sub_self, mul_zero]; exact one_pos

theorem nearestEven_mono {x y : K} (h : x ≤ y) : nearestEven x ≤ nearestEven y := by
  rcases (Int.floor_le_floor h).lt_or_eq with hf | hf
  · have h1 := (nearestEven_bounds x).2
    have h2 := (nearestEven_bounds y).1
    omega
  · unfold nearestEven
    rw [hf]
    by_cases a1 : 2 * (x - ⌊y⌋) < 1
    · rw [if_pos a1]
      have := (nearestEven_bounds y).1
      unfold nearestEven at this
      exact this
    · have b1 : ¬ 2 * (y - ⌊y⌋) < 1 := fun hh => a1 (by linarith)
      rw [if_neg a1, if_neg b1]
      by_cases a2 : 1 < 2 * (x - ⌊y⌋)
      · have b2 : 1 < 2 * (y - ⌊y⌋) := by linarith
        rw [if_pos a2, if_pos b2]
      · rw [if_neg a2]
        by_cases b2 : 1 < 2 * (y - ⌊y⌋)
        · rw [if_pos b2]; split <;> omega
        · rw [if_neg b2]

theorem nearestEven_err (y : K) : |(nearestEven y : K) - y| ≤ 1 / 2 := by
  have h1 := Int.floor_le y
  have h2 := Int.lt_floor_add_one y
  unfold nearestEven
  rw [abs_le]
  split
  · constructor <;> linarith
  · split
    · push_cast; constructor <;> linarith
    · split
      · constructor <;> linarith
      · push_cast; constructor <;> linarith

theorem lastBit_pos (t : Nat) (x : K) : 0 < lastBit t x := zpow_pos two_pos _

theorem lastBit_neg (t : Nat) (x : K) : lastBit t (-x) = lastBit t x := by unfold lastBit; rw [abs_neg]

theorem toBits_zero (t : Nat) : toBits t (0 : K) = 0 := by
  unfold toBits
  rw [if_neg (lt_irrefl _), zero_div]
  have := nearestEven_int (K := K) 0
  rw [Int.cast_zero] at this
  rw [this, Int.cast_zero, zero_mul]

theorem toBits_neg (t : Nat) (x : K) : toBits t (-x) = -toBits t x := by
  rcases lt_trichotomy x 0 with h | h | h
  · unfold toBits
    rw [if_neg (by linarith : ¬ -x < 0), if_pos h, lastBit_neg, neg_neg]
  · subst h; rw [neg_zero, toBits_zero, neg_zero]
  · unfold toBits
    rw [if_pos (by linarith : -x < 0), if_neg (by linarith : ¬ x < 0), lastBit_neg, neg_neg]

theorem toBits_nonneg (t : Nat) {x : K} (h : 0 ≤ x) : 0 ≤ toBits t x := by
  unfold toBits
  rw [if_neg (not_lt.2 h)]
  refine mul_nonneg ?_ (lastBit_pos t x).le
  have h1 := (nearestEven_bounds (x / lastBit t x)).1
  have h2 : 0 ≤ ⌊x / lastBit t x⌋ := Int.floor_nonneg.2 (div_nonneg h (lastBit_pos t x).le)
  exact_mod_cast h2.trans h1

theorem log_bounds {x : K} (h : 0 < x) : (2 : K) ^ Int.log 2 x ≤ x ∧ x < (2 : K) ^ (Int.log 2 x + 1) := by
  have h1 := Int.zpow_log_le_self (b := 2) one_lt_two h
  have h2 := Int.lt_zpow_succ_log_self (b := 2) one_lt_two x
  push_cast at h1 h2
  exact ⟨h1, h2⟩

theorem lastBit_scale (t : Nat) (x : K) (n : Int) : lastBit t x * (2 : K) ^ n = (2 : K) ^ (Int.log 2 |x| + 1 - (t : Int) + n) := by
  unfold lastBit; rw [← zpow_add₀ two_ne_zero]

/-- a positive number lies between the powers of two that enclose its rounded value -/
theorem toBits_pow (t : Nat) (ht : 1 ≤ t) {x : K} (h : 0 < x) : (2 : K) ^ Int.log 2 x ≤ toBits t x ∧ toBits t x ≤ (2 : K) ^ (Int.log 2 x + 1) := by
  obtain ⟨b1, b2⟩ := log_bounds h
  have hl := lastBit_pos t x
  unfold toBits
  rw [if_neg (not_lt.2 h.le)]
  have e1 : (2 : K) ^ Int.log 2 x = ((2 ^ (t - 1) : Int) : K) * lastBit t x := by
    push_cast
    rw [← zpow_natCast, mul_comm, lastBit_scale, abs_of_pos h]
    congr 1
    omega
  have e2 : (2 : K) ^ (Int.log 2 x + 1) = ((2 ^ t : Int) : K) * lastBit t x := by
    push_cast
    rw [← zpow_natCast, mul_comm, lastBit_scale, abs_of_pos h]
    congr 1
    omega
  constructor
  · rw [e1]
    refine mul_le_mul_of_nonneg_right ?_ hl.le
    have : ((2 ^ (t - 1) : Int) : K) ≤ x / lastBit t x := by rw [le_div_iff₀ hl, ← e1]; exact b1
    have := nearestEven_mono this
    rw [nearestEven_int] at this
    exact_mod_cast this
  · rw [e2]
    refine mul_le_mul_of_nonneg_right ?_ hl.le
    have : x / lastBit t x ≤ ((2 ^ t : Int) : K) := by rw [div_le_iff₀ hl, ← e2]; exact b2.le
    have := nearestEven_mono this
    rw [nearestEven_int] at this
    exact_mod_cast this

theorem toBits_mono_pos (t : Nat) (ht : 1 ≤ t) {x y : K} (hx : 0 < x) (h : x ≤ y) : toBits t x ≤ toBits t y := by
  have hy := hx.trans_le h
  have hlog : Int.log 2 x ≤ Int.log 2 y := Int.log_mono_right hx h
  rcases hlog.lt_or_eq with hl | hl
  · refine (toBits_pow t ht hx).2.trans (le_trans ?_ (toBits_pow t ht hy).1)
    exact zpow_le_zpow_right₀ one_le_two (by omega)
  · have he : lastBit t x = lastBit t y := by unfold lastBit; rw [abs_of_pos hx, abs_of_pos hy, hl]
    unfold toBits
    rw [if_neg (not_lt.2 hx.le), if_neg (not_lt.2 hy.le), he]
    refine mul_le_mul_of_nonneg_right ?_ (lastBit_pos t y).le
    have := nearestEven_mono (div_le_div_of_nonneg_right h (lastBit_pos t y).le)
    exact_mod_cast this

theorem toBits_mono (t : Nat) (ht : 1 ≤ t) (x y : K) (h : x ≤ y) : toBits t x ≤ toBits t y := by
  rcases lt_or_ge 0 x with hx | hx
  · exact toBits_mono_pos t ht hx h
  · have hx' : toBits t x ≤ 0 := by
      have := toBits_nonneg t (x := -x) (by linarith)
      rw [toBits_neg] at this; linarith
    rcases le_or_gt 0 y with hy | hy
    · exact hx'.trans (toBits_nonneg t hy)
    · have := toBits_mono_pos t ht (x := -y) (y := -x) (by linarith) (by linarith)
      rw [toBits_neg, toBits_neg] at this; linarith

theorem toBits_err_pos (t : Nat) {x : K} (h : 0 < x) : |toBits t x - x| ≤ ((2 : K) ^ t)⁻¹ * |x| := by
  have hl := lastBit_pos t x
  have hx : x = x / lastBit t x * lastBit t x := by field_simp
  have h1 : toBits t x - x = ((nearestEven (x / lastBit t x) : K) - x / lastBit t x) * lastBit t x := by
    unfold toBits
    rw [if_neg (not_lt.2 h.le), sub_mul, ← hx]
  rw [h1, abs_mul, abs_of_pos hl, abs_of_pos h]
  refine (mul_le_mul_of_nonneg_right (nearestEven_err _) hl.le).trans ?_
  have h2 : 1 / 2 * lastBit t x = ((2 : K) ^ t)⁻¹ * (2 : K) ^ Int.log 2 x := by
    have : (1 / 2 : K) = (2 : K) ^ (-1 : Int) := by norm_num
    rw [this, mul_comm, lastBit_scale, abs_of_pos h, ← zpow_natCast, ← zpow_neg, ← zpow_add₀ two_ne_zero]
    congr 1; ring
  rw [h2]
  exact mul_le_mul_of_nonneg_left (log_bounds h).1 (by positivity)

theorem toBits_err (t : Nat) (x : K) : |toBits t x - x| ≤ ((2 : K) ^ t)⁻¹ * |x| := by
  rcases lt_trichotomy x 0 with h | h | h
  · have := toBits_err_pos t (x := -x) (by linarith)
    rw [toBits_neg, abs_neg, neg_sub_neg, abs_sub_comm] at this
    exact this
  · subst h; rw [toBits_zero]; simp
  · exact toBits_err_pos t h

/-- scaling with a power of two commutes with rounding -/
theorem toBits_scale (t : Nat) (x : K) (n : Int) : toBits t (x * (2 : K) ^ n) = toBits t x * (2 : K) ^ n := by
  have pos : ∀ x : K, 0 < x → toBits t (x * (2 : K) ^ n) = toBits t x * (2 : K) ^ n := by
    intro x h
    have hp : (0 : K) < (2 : K) ^ n := zpow_pos two_pos n
    have hlog : Int.log 2 (x * (2 : K) ^ n) = Int.log 2 x + n := by
      obtain ⟨b1, b2⟩ := log_bounds h
      have hxn := mul_pos h hp
      apply le_antisymm
      · have : x * (2 : K) ^ n < ((2 : Nat) : K) ^ (Int.log 2 x + n + 1) := by
          push_cast
          have e : (2 : K) ^ (Int.log 2 x + n + 1) = (2 : K) ^ (Int.log 2 x + 1) * (2 : K) ^ n := by
            rw [← zpow_add₀ two_ne_zero]; congr 1; ring
          rw [e]
          exact mul_lt_mul_of_pos_right b2 hp
        have := (Int.lt_zpow_iff_log_lt one_lt_two hxn).1 this
        omega
      · refine (Int.zpow_le_iff_le_log one_lt_two hxn).1 ?_
        push_cast
        rw [zpow_add₀ two_ne_zero]
        exact mul_le_mul_of_nonneg_right b1 hp.le
    have hb : lastBit t (x * (2 : K) ^ n) = lastBit t x * (2 : K) ^ n := by
      rw [lastBit_scale, abs_of_pos h]
      unfold lastBit
      rw [abs_of_pos (mul_pos h hp), hlog]
      congr 1; ring
    unfold toBits
    rw [if_neg (not_lt.2 (mul_pos h hp).le), if_neg (not_lt.2 h.le), hb, mul_div_mul_right _ _ hp.ne', mul_assoc]
  rcases lt_trichotomy x 0 with h | h | h
  · have := pos (-x) (by linarith)
    rw [neg_mul, toBits_neg, toBits_neg, neg_mul] at this
    exact neg_injective this
  · subst h; rw [zero_mul, toBits_zero, zero_mul]
  · exact pos x h

/-- powers of two are representable -/
theorem toBits_two_pow (t : Nat) (ht : 1 ≤ t) (n : Int) : toBits t ((2 : K) ^ n) = (2 : K) ^ n := by
  have h1 : toBits t (1 : K) = 1 := by
    unfold toBits
    have e : (1 : K) / lastBit t (1 : K) = ((2 ^ (t - 1) : Int) : K) := by
      unfold lastBit
      rw [abs_one, Int.log_one_right, one_div, ← zpow_neg]
      push_cast
      rw [← zpow_natCast]
      congr 1; omega
    rw [if_neg (not_lt.2 zero_le_one), e, nearestEven_int, ← e, div_mul_cancel₀ _ (lastBit_pos t 1).ne']
  have := toBits_scale t (1 : K) n
  rw [one_mul, h1, one_mul] at this
  exact this

/-- IEEE rounding to `t` bits is a rounding with unit roundoff `2^-t`. -/
def ieee (K : Type) [Field K] [LinearOrder K] [IsStrictOrderedRing K] [FloorRing K] (t : Nat) (ht : 1 ≤ t) : Rounding K where
  rnd := toBits t
  u := ((2 : K) ^ t)⁻¹
  nonneg := by positivity
  mono := toBits_mono t ht
  err := toBits_err t

end ieee

section quant
variable {K : Type} [Field K] [LinearOrder K] [IsStrictOrderedRing K] {d : Nat}

namespace Rounding

theorem zero (R : Rounding K) : R.rnd 0 = 0 := by
  have := R.err 0
  rw [sub_zero, abs_zero, mul_zero] at this
  exact abs_eq_zero.1 (le_antisymm this (abs_nonneg _))

theorem rnd_nonneg (R : Rounding K) {x : K} (h : 0 ≤ x) : 0 ≤ R.rnd x := by rw [← R.zero]; exact R.mono _ _ h

/-- relative errors multiply -/
theorem compose (R : Rounding K) {a x y : K} (h : |x - y| ≤ a * |y|) : |R.rnd x - y| ≤ ((1 + R.u) * (1 + a) - 1) * |y| := by
  have h1 := R.err x
  have h2 : |x| ≤ (1 + a) * |y| := by
    have : |x| ≤ |x - y| + |y| := by
      have := abs_add_le (x - y) y
      rwa [sub_add_cancel] at this
    linarith
  have h3 : |R.rnd x - y| ≤ |R.rnd x - x| + |x - y| := by
    have := abs_add_le (R.rnd x - x) (x - y)
    rwa [sub_add_sub_cancel] at this
  have h4 := mul_le_mul_of_nonneg_left h2 R.nonneg
  nlinarith

end Rounding

namespace Arith

/-- relative error of the position in units of bundles: three roundings -/
def eps (R : Arith K) : K := (1 + R.T.u) * ((1 + R.T.u) * (1 + R.D.u)) - 1

theorem eps_nonneg (R : Arith K) : 0 ≤ R.eps := by
  have h1 := R.T.nonneg
  have h2 := R.D.nonneg
  unfold eps
  nlinarith [mul_nonneg h1 h2, mul_nonneg h1 h1, mul_nonneg (mul_nonneg h1 h1) h2]

end Arith

theorem inv_err (R : Arith K) {r : K} (hr : 0 < r) (hh : bundleResolutionR R r = r / 2) :
    |bundleResolutionInvR R r - 2 / r| ≤ ((1 + R.T.u) * (1 + R.D.u) - 1) * |2 / r| := by
  unfold bundleResolutionInvR
  rw [hh]
  have e : 1 / (r / 2) = 2 / r := by field_simp
  rw [e]
  have := R.D.err (2 / r)
  exact R.T.compose this

theorem inv_nonneg (R : Arith K) {r : K} (hr : 0 < r) : 0 ≤ bundleResolutionInvR R r := by
  unfold bundleResolutionInvR
  refine R.T.rnd_nonneg (R.D.rnd_nonneg (one_div_nonneg.2 ?_))
  unfold bundleResolutionR
  exact R.T.rnd_nonneg (R.D.rnd_nonneg (by linarith))

theorem pos_err (R : Arith K) {r : K} (hr : 0 < r) (hh : bundleResolutionR R r = r / 2) (x : K) :
    |R.T.rnd (x * bundleResolutionInvR R r) - x * (2 / r)| ≤ R.eps * |x * (2 / r)| := by
  have h1 := inv_err R hr hh
  have h2 : |x * bundleResolutionInvR R r - x * (2 / r)| ≤ ((1 + R.T.u) * (1 + R.D.u) - 1) * |x * (2 / r)| := by
    rw [← mul_sub, abs_mul, abs_mul]
    calc _ ≤ |x| * (((1 + R.T.u) * (1 + R.D.u) - 1) * |2 / r|) := mul_le_mul_of_nonneg_left h1 (abs_nonneg _)
      _ = _ := by ring
  have := R.T.compose h2
  unfold Arith.eps
  refine this.trans (le_of_eq ?_)
  ring

variable [FloorRing K]

theorem toInt_eq_some {n m : Int} : toInt n = some m ↔ n = m ∧ -2147483648 ≤ n ∧ n < 2147483648 := by
  unfold toInt
  split
  · rename_i h; simp [h]
  · rename_i h; simp only [reduceCtorEq, false_iff]; exact fun x => h x.2

theorem toBundleIndexR_eq_some (R : Arith K) (r : K) (p : Pt K d) (b : Idx d) :
    toBundleIndexR R r p = some b ↔
      ∀ i, ⌊R.T.rnd (p i * bundleResolutionInvR R r)⌋ = b i ∧ -2147483648 ≤ b i ∧ b i < 2147483648 := by
  have key : ∀ i, (coordIndexR R r (p i) = some (b i)) ↔
      (⌊R.T.rnd (p i * bundleResolutionInvR R r)⌋ = b i ∧ -2147483648 ≤ b i ∧ b i < 2147483648) := by
    intro i
    unfold coordIndexR
    rw [toInt_eq_some]
    constructor
    · rintro ⟨h1, h2, h3⟩; exact ⟨h1, h1 ▸ h2, h1 ▸ h3⟩
    · rintro ⟨h1, h2, h3⟩; exact ⟨h1, h1.symm ▸ h2, h1.symm ▸ h3⟩
  simp only [← key]
  unfold toBundleIndexR
  split
  · rename_i h
    rw [Option.some.injEq]
    constructor
    · rintro rfl i
      obtain ⟨x, hx⟩ := Option.isSome_iff_exists.1 (h i)
      show _ = some ((coordIndexR R r (p i)).getD 0)
      rw [hx]; rfl
    · intro hb; funext i; rw [hb i, Option.getD_some]
  · rename_i h
    simp only [reduceCtorEq, false_iff]
    intro hb
    exact h fun i => by rw [hb i]; rfl

end quant

section grid
variable {K : Type} [Field K] [LinearOrder K] [FloorRing K] {d : Nat}

/-- the index function, 0 where it is undefined -/
def idxR (R : Arith K) (r : K) (p : Pt K d) : Idx d := (toBundleIndexR R r p).getD fun _ => 0

theorem idxR_of_some {R : Arith K} {r : K} {p : Pt K d} {b : Idx d} (h : toBundleIndexR R r p = some b) : idxR R r p = b := by
  unfold idxR; rw [h]; rfl

/-- accepted points of one call -/
def accListR (R : Arith K) (g : Geo K d) (ok : Idx d → Bool) (pose : Pt K d → Pt K d) (cloud : List (Pt K d)) : List (Pt K d) :=
  (((cloud.map pose).filter (fun p => g.normal p)).map g.toMap).filter (fun p => ok (idxR R g.r p))

/-- accepted points of a history -/
def accOpsR (R : Arith K) (g : Geo K d) (ok : Idx d → Bool) : List (GridOp K d) → List (Pt K d)
  | [] => []
  | .insert pose cloud :: l => accListR R g ok pose cloud ++ accOpsR R g ok l
  | .core _ :: l => accOpsR R g ok l

theorem collectR_eq (R : Arith K) (g : Geo K d) (ok : Idx d → Bool) (pose : Pt K d → Pt K d) (u' : List (Idx d × Multiset (Pt K d))) :
    ∀ (cloud : List (Pt K d)) (u : List (Idx d × Multiset (Pt K d))), collectR R g ok pose cloud u = some u' →
    u' = (accListR R g ok pose cloud).foldl (fun u p => upsert 0 (fun s => s + {p}) (idxR R g.r p) u) u ∧
      ∀ p ∈ cloud, g.normal (pose p) = true → (toBundleIndexR R g.r (g.toMap (pose p))).isSome
  | [], u, h => by cases h; exact ⟨rfl, by simp⟩
  | p :: cloud, u, h => by
    unfold collectR at h
    simp only at h
    by_cases hn : g.normal (pose p) = true
    · rw [if_pos hn] at h
      obtain ⟨bi, hb, h⟩ := Option.bind_eq_some_iff.1 h
      obtain ⟨h1, h2⟩ := collectR_eq R g ok pose u' cloud _ h
      refine ⟨?_, ?_⟩
      · rw [h1]
        unfold accListR
        simp only [List.map_cons, List.filter_cons, hn, if_true, idxR_of_some hb]
        by_cases hok : ok bi = true
        · simp only [hok, if_true, List.foldl_cons, idxR_of_some hb]
        · simp only [hok]; rfl
      · intro q hq hqn
        rcases List.mem_cons.1 hq with rfl | hq
        · rw [hb]; rfl
        · exact h2 q hq hqn
    · rw [if_neg hn] at h
      obtain ⟨h1, h2⟩ := collectR_eq R g ok pose u' cloud _ h
      refine ⟨?_, ?_⟩
      · rw [h1]
        unfold accListR
        simp only [List.map_cons, List.filter_cons, hn]; rfl
      · intro q hq hqn
        rcases List.mem_cons.1 hq with rfl | hq
        · exact absurd hqn hn
        · exact h2 q hq hqn

theorem collectR_total (R : Arith K) (g : Geo K d) (ok : Idx d → Bool) (pose : Pt K d → Pt K d) :
    ∀ (cloud : List (Pt K d)) (u : List (Idx d × Multiset (Pt K d))),
    (∀ p ∈ cloud, g.normal (pose p) = true → (toBundleIndexR R g.r (g.toMap (pose p))).isSome) →
    ∃ u', collectR R g ok pose cloud u = some u'
  | [], u, _ => ⟨u, rfl⟩
  | p :: cloud, u, h => by
    unfold collectR
    simp only
    by_cases hn : g.normal (pose p) = true
    · rw [if_pos hn]
      obtain ⟨bi, hb⟩ := Option.isSome_iff_exists.1 (h p (List.mem_cons_self ..) hn)
      rw [hb, Option.bind_some]
      exact collectR_total R g ok pose cloud _ fun q hq => h q (List.mem_cons_of_mem _ hq)
    · rw [if_neg hn]
      exact collectR_total R g ok pose cloud _ fun q hq => h q (List.mem_cons_of_mem _ hq)

theorem mem_foldl_upsert (q : Pt K d → Idx d) (x : Idx d) : ∀ (l : List (Pt K d)) (u : List (Idx d × Multiset (Pt K d))),
    x ∈ (l.foldl (fun u p => upsert 0 (fun s => s + {p}) (q p) u) u).map Prod.fst ↔ x ∈ u.map Prod.fst ∨ ∃ p ∈ l, q p = x
  | [], u => by simp
  | p :: l, u => by
    rw [List.foldl_cons, mem_foldl_upsert q x l, mem_upsert_keys]
    simp only [List.mem_cons, exists_eq_or_imp]
    constructor
    · rintro ((h | h) | h)
      · exact Or.inr (Or.inl h.symm)
      · exact Or.inl h
      · exact Or.inr (Or.inr h)
    · rintro (h | h | h)
      · exact Or.inl (Or.inr h)
      · exact Or.inl (Or.inl h.symm)
      · exact Or.inr h

theorem sum_foldl_upsert (q : Pt K d → Idx d) (P : Idx d → Bool) : ∀ (l : List (Pt K d)) (u : List (Idx d × Multiset (Pt K d))),
    (((l.foldl (fun u p => upsert 0 (fun s => s + {p}) (q p) u) u).filter (fun e => P e.1)).map Prod.snd).sum =
      ((u.filter (fun e => P e.1)).map Prod.snd).sum + ((l.filter (fun p => P (q p)) : List (Pt K d)) : Multiset (Pt K d))
  | [], u => by simp
  | p :: l, u => by
    rw [List.foldl_cons, sum_foldl_upsert q P l, sum_upsert]
    by_cases h : P (q p) = true
    · rw [List.filter_cons, if_pos h, if_pos h, add_assoc]
      refine congrArg (_ + ·) ?_
      rw [← Multiset.cons_coe, Multiset.singleton_add]
    · rw [List.filter_cons, if_neg h, if_neg h, add_zero]

open St Abs
variable {B : Backend d}

/-- effect of `insert` with rounded quantisation -/
theorem gridInsertR_spec (L : B.Lawful) (R : Arith K) (g : Geo K d) (dyn : Bool) (pose : Pt K d → Pt K d) (cloud : List (Pt K d))
    (st st' : St B (Multiset (Pt K d))) (hI : RInv L dyn st) (h : gridInsertR R g dyn pose cloud st = some st') :
    RInv L dyn st' ∧ Keeps dyn st.abs st'.abs ∧
    (∀ c, c < 2 ^ d → ∀ i, st'.abs.val c i = st.abs.val c i +
      (((accListR R g (st.abs.valid dyn) pose cloud).filter (fun p => decide (generateIndex (idxR R g.r p) c = i)) : List (Pt K d)) : Multiset (Pt K d))) ∧
    (∀ p ∈ accListR R g (st.abs.valid dyn) pose cloud, idxR R g.r p ∈ st'.abs.allocated) ∧
    (∀ p ∈ cloud, g.normal (pose p) = true → (toBundleIndexR R g.r (g.toMap (pose p))).isSome) := by
  unfold gridInsertR at h
  obtain ⟨u, hu, h⟩ := Option.bind_eq_some_iff.1 h
  obtain ⟨hu, hdef⟩ := collectR_eq R g _ pose u cloud [] hu
  obtain ⟨h1, h2, h3⟩ := RInv.upds _ st st' hI h
  have hgood := (updateList_refines L dyn _ st hI.inv).2 st' h
  have hgood' : ∀ e ∈ u, st.abs.Good e.1 := fun e he => hgood (e.1, fun s => s + e.2) (List.mem_map.2 ⟨e, he, rfl⟩)
  have hkeys : (u.map fun e => (e.1, fun s : Multiset (Pt K d) => s + e.2)).map Prod.fst = u.map Prod.fst := by rw [List.map_map]; rfl
  refine ⟨h1, h3, ?_, ?_, hdef⟩
  · intro c hc i
    rw [h2]
    refine (val_upds_add dyn c hc i _ st.abs hI.ainv hI.rng (fun e he => (hgood' e he).1)).trans ?_
    refine congrArg (st.abs.val c i + ·) ?_
    rw [hu, sum_foldl_upsert (idxR R g.r) (fun b => decide (generateIndex b c = i))]
    simp only [List.filter_nil, List.map_nil, List.sum_nil, zero_add]
    rfl
  · intro p hp
    rw [mem_allocated, h2, flags_upds, hkeys, if_pos]
    · rfl
    · rw [hu, mem_foldl_upsert]; exact Or.inr ⟨p, hp, rfl⟩

theorem gridInsertR_total (L : B.Lawful) (R : Arith K) (g : Geo K d) (dyn : Bool) (pose : Pt K d → Pt K d) (cloud : List (Pt K d))
    (st : St B (Multiset (Pt K d))) (hI : RInv L dyn st)
    (hdef : ∀ p ∈ cloud, g.normal (pose p) = true → (toBundleIndexR R g.r (g.toMap (pose p))).isSome)
    (hg : ∀ p ∈ accListR R g (st.abs.valid dyn) pose cloud, st.abs.Good (idxR R g.r p)) :
    ∃ st', gridInsertR R g dyn pose cloud st = some st' := by
  obtain ⟨u, hu⟩ := collectR_total R g (st.valid dyn) pose cloud [] hdef
  obtain ⟨hu', _⟩ := collectR_eq R g _ pose u cloud [] hu
  obtain ⟨s, hs, _⟩ := (updateList_refines L dyn (u.map fun e => (e.1, fun s => s + e.2)) st hI.inv).1 (by
    intro e he
    obtain ⟨e', he', rfl⟩ := List.mem_map.1 he
    have : e'.1 ∈ u.map Prod.fst := List.mem_map.2 ⟨e', he', rfl⟩
    rw [hu', mem_foldl_upsert] at this
    rcases this with h | ⟨p, hp, hx⟩
    · simp at h
    · rw [← hx]; exact hg p hp)
  exact ⟨s, by unfold gridInsertR; rw [hu]; exact hs⟩

/-- effect of a history with rounded quantisation -/
theorem gridRunR_spec (L : B.Lawful) (R : Arith K) (g : Geo K d) (dyn : Bool) (exp : Multiset (Pt K d) → Bool) : ∀ (ops : List (GridOp K d))
    (st st' : St B (Multiset (Pt K d))), RInv L dyn st → gridRunR R g dyn exp ops st = some st' →
    RInv L dyn st' ∧ Keeps dyn st.abs st'.abs ∧
    (∀ c, c < 2 ^ d → ∀ i, st'.abs.val c i = st.abs.val c i +
      (((accOpsR R g (st.abs.valid dyn) ops).filter (fun p => decide (generateIndex (idxR R g.r p) c = i)) : List (Pt K d)) : Multiset (Pt K d))) ∧
    (∀ p ∈ accOpsR R g (st.abs.valid dyn) ops, idxR R g.r p ∈ st'.abs.allocated ∧ (toBundleIndexR R g.r p).isSome)
  | [], st, st', hI, h => by cases h; exact ⟨hI, .refl .., by simp [accOpsR], by simp [accOpsR]⟩
  | op :: ops, st, st', hI, h => by
    simp only [gridRunR] at h
    obtain ⟨st1, h1, h2⟩ := Option.bind_eq_some_iff.1 h
    cases op with
    | insert pose cloud =>
      obtain ⟨a1, a2, a3, a4, a5⟩ := gridInsertR_spec L R g dyn pose cloud st st1 hI h1
      obtain ⟨b1, b2, b3, b4⟩ := gridRunR_spec L R g dyn exp ops st1 st' a1 h2
      have hv : st1.abs.valid dyn = st.abs.valid dyn := funext a2.valid
      rw [hv] at b3 b4
      refine ⟨b1, a2.trans b2, ?_, ?_⟩
      · intro c hc i
        rw [b3 c hc i, a3 c hc i]
        simp only [accOpsR, List.filter_append, ← Multiset.coe_add, add_assoc]
      · intro p hp
        simp only [accOpsR, List.mem_append] at hp
        rcases hp with hp | hp
        · refine ⟨b2.allocated (a4 p hp), ?_⟩
          unfold accListR at hp
          obtain ⟨q, hq, rfl⟩ := List.mem_map.1 (List.mem_filter.1 hp).1
          obtain ⟨hq, hn⟩ := List.mem_filter.1 hq
          obtain ⟨q', hq', rfl⟩ := List.mem_map.1 hq
          exact a5 q' hq' hn
        · exact b4 p hp
    | core op =>
      obtain ⟨a1, a2⟩ := coreStep_spec L dyn exp op st hI st1 h1
      obtain ⟨b1, b2, b3, b4⟩ := gridRunR_spec L R g dyn exp ops st1 st' a1 h2
      have hv : st1.abs.valid dyn = st.abs.valid dyn := funext a2.valid
      rw [hv] at b3 b4
      refine ⟨b1, a2.keeps.trans b2, ?_, b4⟩
      intro c hc i
      rw [b3 c hc i, a2.val]; rfl

end grid
end Ndt
