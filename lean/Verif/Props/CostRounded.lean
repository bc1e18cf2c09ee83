import Verif.Model.CostRounded
import Verif.Props.Matching
import Verif.Props.Trust
import Verif.Props.PoseRounded
import Verif.Proofs.SamplingFormat
import Mathlib.Analysis.SpecialFunctions.Exp

/-! Property theorem C126: the costs and the scores of nlopt keep their meaning in floating point. -/

namespace Ndt

open Real Matching Spec

/-- `x` is `y` up to `k` roundings with unit roundoff `u` -/
def Spec.Roundings (u : ℝ) (k : Nat) (x y : ℝ) : Prop := y * (1 - u) ^ k ≤ x ∧ x ≤ y * (1 + u) ^ k

/-- the `hypot` of the C++ library is correct up to `k` roundings -/
def Spec.HypotAccurate (R : Rounding ℝ) (k : Nat) (hyp : ℝ → ℝ → ℝ) : Prop := ∀ a b, Roundings R.u k (hyp a b) √(a ^ 2 + b ^ 2)

/-- the numbers of the type: rounding leaves the number alone (`Arithmetic`), and so it does with `0, …, n` -/
structure Spec.CountsTo (R : Rounding ℝ) (n : Nat) : Prop extends Arithmetic R where
  nat : ∀ m : Nat, m ≤ n → R.rnd m = m

/-! ### Calculating with roundings -/

section roundings
variable {u x y x' y' : ℝ} {k l : Nat}

theorem Spec.Roundings.nonneg (hu : u ≤ 1) (hy : 0 ≤ y) (h : Roundings u k x y) : 0 ≤ x := (mul_nonneg hy (pow_nonneg (sub_nonneg.2 hu) _)).trans h.1

theorem Spec.Roundings.refl (u : ℝ) (x : ℝ) : Roundings u 0 x x := by simp [Roundings]

theorem Spec.Roundings.mono (h0 : 0 ≤ u) (hu : u ≤ 1) (hy : 0 ≤ y) (h : Roundings u k x y) (hkl : k ≤ l) : Roundings u l x y :=
  ⟨(mul_le_mul_of_nonneg_left (pow_le_pow_of_le_one (sub_nonneg.2 hu) (by linarith) hkl) hy).trans h.1, h.2.trans (mul_le_mul_of_nonneg_left (pow_le_pow_right₀ (by linarith) hkl) hy)⟩

theorem Spec.Roundings.add (h : Roundings u k x y) (h' : Roundings u k x' y') : Roundings u k (x + x') (y + y') := by
  constructor <;> rw [add_mul]
  · exact add_le_add h.1 h'.1
  · exact add_le_add h.2 h'.2

theorem Spec.Roundings.mul {c : ℝ} (hc : 0 ≤ c) (h : Roundings u k x y) : Roundings u k (c * x) (c * y) := by
  constructor <;> rw [mul_assoc]
  · exact mul_le_mul_of_nonneg_left h.1 hc
  · exact mul_le_mul_of_nonneg_left h.2 hc

theorem Spec.Roundings.div {c : ℝ} (hc : 0 ≤ c) (h : Roundings u k x y) : Roundings u k (x / c) (y / c) := by
  rw [div_eq_inv_mul, div_eq_inv_mul]
  exact h.mul (_root_.inv_nonneg.2 hc)

theorem Spec.Roundings.rnd {R : Rounding ℝ} (hu : R.u ≤ 1) (hy : 0 ≤ y) (h : Roundings R.u k x y) : Roundings R.u (k + 1) (R.rnd x) y := by
  have hs := R.sides (h.nonneg hu hy)
  constructor
  · rw [pow_succ, ← mul_assoc]
    exact (mul_le_mul_of_nonneg_right h.1 (sub_nonneg.2 hu)).trans hs.1
  · rw [pow_succ, ← mul_assoc]
    exact hs.2.trans (mul_le_mul_of_nonneg_right h.2 (by linarith [R.nonneg]))

theorem Spec.Roundings.trans (h0 : 0 ≤ u) (hu : u ≤ 1) {z : ℝ} (h : Roundings u k x y) (h' : Roundings u l y z) : Roundings u (k + l) x z := by
  constructor
  · rw [pow_add, mul_comm ((1 - u) ^ k), ← mul_assoc]
    exact (mul_le_mul_of_nonneg_right h'.1 (pow_nonneg (sub_nonneg.2 hu) _)).trans h.1
  · rw [pow_add, mul_comm ((1 + u) ^ k), ← mul_assoc]
    exact h.2.trans (mul_le_mul_of_nonneg_right h'.2 (by positivity))

theorem Spec.Roundings.sqrt (h0 : 0 ≤ u) (hu : u ≤ 1) (hy : 0 ≤ y) (h : Roundings u (2 * k) x y) : Roundings u k √x √y := by
  have e : ∀ b : ℝ, 0 ≤ b → √y * b ^ k = √(y * b ^ (2 * k)) := by
    intro b hb
    rw [sqrt_mul hy, mul_comm 2 k, pow_mul, sqrt_sq (pow_nonneg hb _)]
  constructor
  · rw [e _ (sub_nonneg.2 hu)]; exact sqrt_le_sqrt h.1
  · rw [e _ (by linarith)]; exact sqrt_le_sqrt h.2

/-- the square of a rounded number -/
theorem Spec.Roundings.rndSq (R : Rounding ℝ) (hu : R.u ≤ 1) (x : ℝ) : Roundings R.u 2 (R.rnd x * R.rnd x) (x * x) := by
  have h := abs_le.1 ((abs_abs_sub_abs_le_abs_sub (R.rnd x) x).trans (R.err x))
  have h1 : |x| * (1 - R.u) ≤ |R.rnd x| := by linarith [h.1]
  have h2 : |R.rnd x| ≤ |x| * (1 + R.u) := by linarith [h.2]
  have h3 : 0 ≤ |x| * (1 - R.u) := mul_nonneg (abs_nonneg _) (sub_nonneg.2 hu)
  rw [← abs_mul_abs_self (R.rnd x), ← abs_mul_abs_self x]
  constructor
  · calc |x| * |x| * (1 - R.u) ^ 2 = (|x| * (1 - R.u)) * (|x| * (1 - R.u)) := by ring
      _ ≤ _ := mul_le_mul h1 h1 h3 (abs_nonneg _)
  · calc |R.rnd x| * |R.rnd x| ≤ (|x| * (1 + R.u)) * (|x| * (1 + R.u)) := mul_le_mul h2 h2 (abs_nonneg _) ((abs_nonneg _).trans h2)
      _ = _ := by ring

/-- the error in terms of the right value -/
theorem Spec.Roundings.err (h0 : 0 ≤ u) (hu : u ≤ 1) (hy : 0 ≤ y) (h : Roundings u k x y) : |x - y| ≤ ((1 + u) ^ k - 1) * y := by
  have hb : 2 ≤ (1 + u) ^ k + (1 - u) ^ k := by
    have h1 := one_add_mul_le_pow (a := u) (by linarith) k
    have h2 := one_add_mul_le_pow (a := -u) (by linarith) k
    rw [← sub_eq_add_neg] at h2
    linarith
  rw [abs_le]
  constructor
  · have := mul_le_mul_of_nonneg_right hb hy
    linarith [h.1]
  · linarith [h.2]

end roundings

/-! ### The sum over the points -/

theorem pointCostR_eq {R : Rounding ℝ} (h1 : R.rnd 1 = 1) (tiny : ℝ) (s : Fl ℝ) : pointCostR R tiny s = R.rnd (pointCost tiny s) := by
  unfold pointCostR pointCost
  split <;> simp [h1]

theorem pointCostSkipR_eq {R : Rounding ℝ} (h0 : R.rnd 0 = 0) (tiny : ℝ) (s : Fl ℝ) : pointCostSkipR R tiny s = R.rnd (pointCostSkip tiny s) := by
  unfold pointCostSkipR pointCostSkip
  split <;> simp [h0]

theorem foldlR_roundings {α : Type} (R : Rounding ℝ) (hu : R.u ≤ 1) (f g : α → ℝ) (j : Nat) : ∀ (l : List α) (k : Nat) (a b : ℝ), j ≤ k → 0 ≤ b → Roundings R.u k a b →
    (∀ p ∈ l, 0 ≤ g p ∧ Roundings R.u j (f p) (g p)) → Roundings R.u (k + l.length) (l.foldl (fun fi p => R.rnd (fi + f p)) a) (l.foldl (fun fi p => fi + g p) b)
  | [], _, _, _, _, _, h, _ => h
  | p :: l, k, a, b, hk, hb, h, hl => by
    have hp := hl p (List.mem_cons_self ..)
    have := foldlR_roundings R hu f g j l (k + 1) (R.rnd (a + f p)) (b + g p) (by omega) (add_nonneg hb hp.1)
      ((h.add (hp.2.mono R.nonneg hu hp.1 hk)).rnd hu (add_nonneg hb hp.1)) fun p hp => hl p (List.mem_cons_of_mem _ hp)
    rw [List.foldl_cons, List.foldl_cons, List.length_cons]
    rwa [show k + (l.length + 1) = k + 1 + l.length by omega]

theorem sumCostR_roundings {n d : Nat} {R : Rounding ℝ} (hu : R.u ≤ 1) (F : Functor n d) (c cR : Fl ℝ → ℝ) (x : Fin n → ℝ) (hc : ∀ q, 0 ≤ c (F.sample q)) (he : ∀ s, cR s = R.rnd (c s)) :
    Roundings R.u (F.points.length + 1) (F.sumCostR R cR x) (F.sumCost c x) := by
  have := foldlR_roundings R hu (fun p => cR (F.sample (F.act x p))) (fun p => c (F.sample (F.act x p))) 1 F.points 1 0 0 le_rfl le_rfl (by simp [Roundings]) fun p _ =>
    ⟨hc _, by rw [he]; exact (Roundings.refl R.u _).rnd hu (hc _)⟩
  rwa [add_comm] at this

theorem foldlR_count {α : Type} (R : Rounding ℝ) (f : α → ℝ) (N : Nat) (hN : ∀ m : Nat, m ≤ N → R.rnd m = m) : ∀ (l : List α) (m : Nat) (a : ℝ), m + l.length ≤ N → 0 ≤ a → a ≤ m → (∀ p ∈ l, 0 ≤ f p ∧ f p ≤ 1) →
    0 ≤ l.foldl (fun fi p => R.rnd (fi + f p)) a ∧ l.foldl (fun fi p => R.rnd (fi + f p)) a ≤ (m + l.length : Nat)
  | [], _, _, _, h0, h1, _ => ⟨h0, h1⟩
  | p :: l, m, a, hm, h0, h1, hl => by
    have hp := hl p (List.mem_cons_self ..)
    rw [List.length_cons] at hm ⊢
    have hz : R.rnd 0 = 0 := by simpa using hN 0 (Nat.zero_le _)
    have hs : R.rnd ((m + 1 : Nat) : ℝ) = (m + 1 : Nat) := hN _ (by omega)
    have := foldlR_count R f N hN l (m + 1) (R.rnd (a + f p)) (by omega) (by rw [← hz]; exact R.mono _ _ (add_nonneg h0 hp.1))
      (by rw [← hs]; refine R.mono _ _ ?_; push_cast; exact add_le_add h1 hp.2) fun p hp => hl p (List.mem_cons_of_mem _ hp)
    rw [List.foldl_cons]
    rwa [show m + (l.length + 1) = m + 1 + l.length by omega]

theorem sumCostR_count {n d : Nat} {R : Rounding ℝ} (F : Functor n d) (hR : CountsTo R F.points.length) (c cR : Fl ℝ → ℝ) (x : Fin n → ℝ) (hc : ∀ q, 0 ≤ c (F.sample q) ∧ c (F.sample q) ≤ 1) (he : ∀ s, cR s = R.rnd (c s))
    (hp : F.points ≠ []) : 0 ≤ F.sumCostR R cR x ∧ F.sumCostR R cR x ≤ F.points.length := by
  have h0 : R.rnd 0 = 0 := by simpa using hR.nat 0 (Nat.zero_le _)
  have h1 : R.rnd 1 = 1 := by simpa using hR.nat 1 (List.length_pos_iff.2 hp)
  have := foldlR_count R (fun p => cR (F.sample (F.act x p))) _ hR.nat F.points 0 0 (by omega) le_rfl (by simp) fun p _ => by
    rw [he]
    exact ⟨by rw [← h0]; exact R.mono _ _ (hc _).1, by conv_rhs => rw [← h1]
                                                       exact R.mono _ _ (hc _).2⟩
  rwa [zero_add] at this

/-! ### The weighting -/

theorem weightedR_roundings {n d : Nat} {R : Rounding ℝ} (hu : R.u ≤ 1) (F : Functor n d) (hm : 0 ≤ F.mapW) (ht : 0 ≤ F.transW) (hr : 0 ≤ F.rotW) {a b s t r q : ℝ} {kt kr N : Nat} (hb : 0 ≤ b) (ht0 : 0 ≤ t)
    (h : Roundings R.u (F.points.length + 1) a b) (hs : Roundings R.u kt s t) (hq : Roundings R.u kr |r| |q|) (h1 : F.points.length + 3 ≤ N) (h2 : kt + 1 ≤ N) (h3 : kr + 1 ≤ N) :
    Roundings R.u (N + 2) (F.weightedR R a s r) (F.weighted b t q) := by
  unfold Functor.weightedR Functor.weighted
  have n1 : 0 ≤ F.mapW * b / (F.points.length : ℝ) := div_nonneg (mul_nonneg hm hb) (Nat.cast_nonneg _)
  have n2 : 0 ≤ F.transW * t := mul_nonneg ht ht0
  have n3 : 0 ≤ F.rotW * |q| := mul_nonneg hr (abs_nonneg _)
  have e1 := ((((h.mul hm).rnd hu (mul_nonneg hm hb)).div (Nat.cast_nonneg F.points.length)).rnd hu n1).mono R.nonneg hu n1 h1
  have e2 := ((hs.mul ht).rnd hu n2).mono R.nonneg hu n2 h2
  have e3 := ((hq.mul hr).rnd hu n3).mono R.nonneg hu n3 (h3.trans (Nat.le_succ N))
  exact (((e1.add e2).rnd hu (add_nonneg n1 n2)).add e3).rnd hu (add_nonneg (add_nonneg n1 n2) n3)

theorem unweightedR_err {n d : Nat} {R : Rounding ℝ} (hu : R.u ≤ 1) (F : Functor n d) (hm : 0 < F.mapW) (ht : 0 ≤ F.transW) (hr : 0 ≤ F.rotW) {c m s t r q : ℝ} {kt kr N : Nat} (hm0 : 0 ≤ m) (hm1 : m ≤ 1) (ht0 : 0 ≤ t)
    (h : Roundings R.u N c (F.mapW * m + F.transW * t + F.rotW * |q|)) (hs : Roundings R.u kt s t) (hq : Roundings R.u kr |r| |q|) (h2 : kt + 1 ≤ N) (h3 : kr + 1 ≤ N) :
    |F.unweightedR R c s r - (1 - m)| ≤ ((1 + R.u) ^ (N + 4) - 1) * (1 + 2 * (F.transW * t + F.rotW * |q|) / F.mapW) := by
  unfold Functor.unweightedR
  have h0 := R.nonneg
  have n1 : 0 ≤ F.mapW * m := mul_nonneg hm.le hm0
  have n2 : 0 ≤ F.transW * t := mul_nonneg ht ht0
  have n3 : 0 ≤ F.rotW * |q| := mul_nonneg hr (abs_nonneg _)
  have e1 := h.err h0 hu (add_nonneg (add_nonneg n1 n2) n3)
  have e2 := (((hs.mul ht).rnd hu n2).mono h0 hu n2 h2).err h0 hu n2
  have e3 := (((hq.mul hr).rnd hu n3).mono (l := N + 1) h0 hu n3 (by omega)).err h0 hu n3
  set A := F.mapW * m with hA
  set T := F.transW * t with hT
  set Q := F.rotW * |q| with hQ
  set u := R.u with hud
  have step : ∀ {x y B : ℝ} {j : Nat}, |x - y| ≤ ((1 + u) ^ j - 1) * B → |y| ≤ B → |R.rnd x - y| ≤ ((1 + u) ^ (j + 1) - 1) * B := by
    intro x y B j hx hy
    have := R.err_step hx hy
    rw [← hud] at this
    rwa [show (1 + u) * (1 + ((1 + u) ^ j - 1)) - 1 = (1 + u) ^ (j + 1) - 1 by ring] at this
  have s1 : |R.rnd (c - R.rnd (F.transW * s)) - (A + Q)| ≤ ((1 + u) ^ (N + 1) - 1) * (A + 2 * T + Q) := by
    refine step ?_ (by rw [abs_of_nonneg (by positivity)]; linarith)
    have : c - R.rnd (F.transW * s) - (A + Q) = (c - (A + T + Q)) - (R.rnd (F.transW * s) - T) := by ring
    rw [this]
    refine (abs_sub _ _).trans ((add_le_add e1 e2).trans (le_of_eq (by ring)))
  have s2 : |R.rnd (R.rnd (c - R.rnd (F.transW * s)) - R.rnd (F.rotW * |r|)) - A| ≤ ((1 + u) ^ (N + 2) - 1) * (A + 2 * T + 2 * Q) := by
    refine step ?_ (by rw [abs_of_nonneg n1]; linarith)
    have : R.rnd (c - R.rnd (F.transW * s)) - R.rnd (F.rotW * |r|) - A = (R.rnd (c - R.rnd (F.transW * s)) - (A + Q)) - (R.rnd (F.rotW * |r|) - Q) := by ring
    rw [this]
    refine (abs_sub _ _).trans ((add_le_add s1 e3).trans (le_of_eq (by ring)))
  set z := R.rnd (R.rnd (c - R.rnd (F.transW * s)) - R.rnd (F.rotW * |r|))
  have hB : (A + 2 * T + 2 * Q) / F.mapW ≤ 1 + 2 * (T + Q) / F.mapW := by
    rw [show A + 2 * T + 2 * Q = F.mapW * m + 2 * (T + Q) by rw [hA]; ring, add_div, mul_div_cancel_left₀ _ hm.ne']
    linarith
  have hE : ∀ j : Nat, 0 ≤ (1 + u) ^ j - 1 := fun j => sub_nonneg.2 (one_le_pow₀ (by linarith))
  have hP : 0 ≤ 2 * (T + Q) / F.mapW := by positivity
  have s3 : |R.rnd (z / F.mapW) - m| ≤ ((1 + u) ^ (N + 3) - 1) * (1 + 2 * (T + Q) / F.mapW) := by
    refine step ?_ (by rw [abs_of_nonneg hm0]; linarith)
    have : z / F.mapW - m = (z - A) / F.mapW := by rw [sub_div, hA, mul_div_cancel_left₀ _ hm.ne']
    rw [this, abs_div, abs_of_pos hm]
    refine (div_le_div_of_nonneg_right s2 hm.le).trans ?_
    rw [mul_div_assoc]
    exact mul_le_mul_of_nonneg_left hB (hE _)
  refine step ?_ (by rw [abs_of_nonneg (by linarith)]; linarith)
  rw [show 1 - R.rnd (z / F.mapW) - (1 - m) = -(R.rnd (z / F.mapW) - m) by ring, abs_neg]
  exact s3

/-! ### Distances -/

theorem trans2R_roundings {d : Nat} {R : Rounding ℝ} (hu : R.u ≤ 1) {k : Nat} {hyp : ℝ → ℝ → ℝ} (hh : HypotAccurate R k hyp) (F : Functor 3 d) (x : Fin 3 → ℝ) : Roundings R.u (k + 1) (F.trans2R R hyp x) (F.trans2 x) := by
  unfold Functor.trans2R Functor.trans2 hypot2
  refine (hh _ _).trans R.nonneg hu (Roundings.sqrt R.nonneg hu (add_nonneg (mul_self_nonneg _) (mul_self_nonneg _)) ?_)
  rw [pow_two, pow_two]
  exact (Roundings.rndSq R hu _).add (Roundings.rndSq R hu _)

theorem hypot3R_roundings {R : Rounding ℝ} (hu : R.u ≤ 1) {k : Nat} {x y z x' y' z' : ℝ} (hx : Roundings R.u (2 * k) (x * x) (x' * x')) (hy : Roundings R.u (2 * k) (y * y) (y' * y')) (hz : Roundings R.u (2 * k) (z * z) (z' * z')) :
    Roundings R.u (k + 3) (hypot3R R x y z) (hypot3 x' y' z') := by
  unfold hypot3R hypot3
  have nx := mul_self_nonneg x'
  have ny := mul_self_nonneg y'
  have nz := mul_self_nonneg z'
  have h1 := ((hx.rnd hu nx).add (hy.rnd hu ny)).rnd hu (add_nonneg nx ny)
  have h2 := (h1.add ((hz.rnd hu nz).mono R.nonneg hu nz (Nat.le_succ _))).rnd hu (add_nonneg (add_nonneg nx ny) nz)
  refine Roundings.rnd hu (sqrt_nonneg _) (k := k + 2) ?_
  exact Roundings.sqrt R.nonneg hu (by positivity) (h2.mono R.nonneg hu (by positivity) (by omega))

theorem trans3R_roundings {n : Nat} {R : Rounding ℝ} (hu : R.u ≤ 1) (F : Functor (n + 3) 3) (x : Fin (n + 3) → ℝ) : Roundings R.u 4 (F.trans3R R x) (F.trans3 x) :=
  hypot3R_roundings hu (k := 1) (Roundings.rndSq R hu _) (Roundings.rndSq R hu _) (Roundings.rndSq R hu _)

theorem rotRPYR_roundings {R : Rounding ℝ} (hu : R.u ≤ 1) (F : Functor 6 3) (x : Fin 6 → ℝ) : Roundings R.u 3 |F.rotRPYR R x| |F.rotRPY x| := by
  have h : Roundings R.u 3 (F.rotRPYR R x) (F.rotRPY x) := hypot3R_roundings hu (k := 0) (Roundings.refl _ _) (Roundings.refl _ _) (Roundings.refl _ _)
  have h0 : 0 ≤ F.rotRPY x := sqrt_nonneg _
  rwa [abs_of_nonneg h0, abs_of_nonneg (h.nonneg hu h0)]

theorem sumCost_nonneg {n d : Nat} (F : Functor n d) (c : Fl ℝ → ℝ) (x : Fin n → ℝ) (h : ∀ q, 0 ≤ c (F.sample q)) : 0 ≤ F.sumCost c x := by
  unfold Functor.sumCost
  rw [foldl_add_eq, zero_add]
  refine List.sum_nonneg fun y hy => ?_
  obtain ⟨p, _, rfl⟩ := List.mem_map.1 hy
  exact h _

/-! ### The property -/

/-- **C126** (costs). With weights that are not negative and scores between 0 and 1, the cost that nlopt gets is the exact cost up to a number of roundings that is the number of scan points plus a constant: in 2D, in 3D with Euler angles, and on 3D
occupancy maps with Euler angles. -/
theorem C126_cost (R : Rounding ℝ) :
    (∀ (F : Functor 3 2) (k : Nat) (hyp : ℝ → ℝ → ℝ) (x : Fin 3 → ℝ), CountsTo R F.points.length → HypotAccurate R k hyp → UnitScores F → F.points ≠ [] → 0 ≤ F.mapW → 0 ≤ F.transW → 0 ≤ F.rotW →
      Roundings R.u (F.points.length + k + 5) (F.nlopt2R R hyp x) (F.nlopt2 x)) ∧
    (∀ (F : Functor 6 3) (x : Fin 6 → ℝ), CountsTo R F.points.length → UnitScores F → F.points ≠ [] → 0 ≤ F.mapW → 0 ≤ F.transW → 0 ≤ F.rotW →
      Roundings R.u (F.points.length + 6) (F.nloptRPYR R x) (F.nloptRPY x) ∧ Roundings R.u (F.points.length + 6) (F.nloptOccRPYR R x) (F.nloptOccRPY x)) := by
  constructor
  · intro F k hyp x hR hh hs hp hm ht hr
    have hu : R.u ≤ 1 := hR.fine.trans (by norm_num)
    have hlen := List.length_pos_iff.2 hp
    have h1 : R.rnd 1 = 1 := by simpa using hR.nat 1 hlen
    have hc : ∀ q, 0 ≤ pointCost F.tiny (F.sample q) := fun q => (pointCost_unit (hs q)).1.1
    exact weightedR_roundings hu F hm ht hr (N := F.points.length + k + 3) (sumCost_nonneg F _ x hc) (sqrt_nonneg _) (sumCostR_roundings hu F _ _ x hc fun s => pointCostR_eq h1 _ s)
      (trans2R_roundings hu hh F x) (Roundings.refl _ _) (by omega) (by omega) (by omega)
  · intro F x hR hs hp hm ht hr
    have hu : R.u ≤ 1 := hR.fine.trans (by norm_num)
    have hlen := List.length_pos_iff.2 hp
    have h1 : R.rnd 1 = 1 := by simpa using hR.nat 1 hlen
    have h0 : R.rnd 0 = 0 := by simpa using hR.nat 0 (Nat.zero_le _)
    have hc : ∀ q, 0 ≤ pointCost F.tiny (F.sample q) := fun q => (pointCost_unit (hs q)).1.1
    have hc' : ∀ q, 0 ≤ pointCostSkip F.tiny (F.sample q) := fun q => (pointCost_unit (hs q)).2.1
    exact ⟨weightedR_roundings hu F hm ht hr (N := F.points.length + 4) (sumCost_nonneg F _ x hc) (sqrt_nonneg _) (sumCostR_roundings hu F _ _ x hc fun s => pointCostR_eq h1 _ s)
      (trans3R_roundings hu F x) (rotRPYR_roundings hu F x) (by omega) (by omega) (by omega),
      weightedR_roundings hu F hm ht hr (N := F.points.length + 4) (sumCost_nonneg F _ x hc') (sqrt_nonneg _) (sumCostR_roundings hu F _ _ x hc' fun s => pointCostSkipR_eq h0 _ s)
      (trans3R_roundings hu F x) (rotRPYR_roundings hu F x) (by omega) (by omega) (by omega)⟩

/-- **C126** (scores). The score that nlopt reports for its cost is the mean score of the moved points, up to an error that grows with the number of points and with the weighted distance from the initial guess, divided by the map weight. -/
theorem C126_score (R : Rounding ℝ) :
    (∀ (F : Functor 3 2) (k : Nat) (hyp : ℝ → ℝ → ℝ) (x : Fin 3 → ℝ), CountsTo R F.points.length → HypotAccurate R k hyp → UnitScores F → F.points ≠ [] → 0 < F.mapW → 0 ≤ F.transW → 0 ≤ F.rotW →
      |F.nloptScore2R R hyp x (F.nlopt2R R hyp x) - mean (F.points.map fun p => properScore F.tiny (F.sample (F.act x p)))| ≤
        ((1 + R.u) ^ (F.points.length + k + 9) - 1) * (1 + 2 * (F.transW * √((x 0 - F.guess 0) ^ 2 + (x 1 - F.guess 1) ^ 2) + F.rotW * |F.dif (x 2) (F.guess 2)|) / F.mapW)) ∧
    (∀ (F : Functor 6 3) (x : Fin 6 → ℝ), CountsTo R F.points.length → UnitScores F → F.points ≠ [] → 0 < F.mapW → 0 ≤ F.transW → 0 ≤ F.rotW →
      |F.nloptScoreRPYR R x (F.nloptRPYR R x) - mean (F.points.map fun p => properScore F.tiny (F.sample (F.act x p)))| ≤
        ((1 + R.u) ^ (F.points.length + 10) - 1) * (1 + 2 * (F.transW * √((x 0 - F.guess 0) ^ 2 + (x 1 - F.guess 1) ^ 2 + (x 2 - F.guess 2) ^ 2) +
          F.rotW * √(F.dif (x 3) (F.guess 3) ^ 2 + F.dif (x 4) (F.guess 4) ^ 2 + F.dif (x 5) (F.guess 5) ^ 2)) / F.mapW)) := by
  constructor
  · intro F k hyp x hR hh hs hp hm ht hr
    have hu : R.u ≤ 1 := hR.fine.trans (by norm_num)
    have hc := (C126_cost R).1 F k hyp x hR hh hs hp hm.le ht hr
    have hs1 := sumCost_unit F (pointCost F.tiny) x fun q => (pointCost_unit (hs q)).1
    rw [Functor.nlopt2, Functor.weighted, mul_div_assoc] at hc
    have := unweightedR_err hu F hm ht hr hs1.1 hs1.2 (sqrt_nonneg _) hc (trans2R_roundings hu hh F x) (Roundings.refl _ |F.rot2 x|) (by omega) (by omega)
    rw [mean_of F hp] at this
    simpa only [Functor.nloptScore2R, Functor.trans2, Functor.rot2, hypot2, sq] using this
  · intro F x hR hs hp hm ht hr
    have hu : R.u ≤ 1 := hR.fine.trans (by norm_num)
    have hc := ((C126_cost R).2 F x hR hs hp hm.le ht hr).1
    have hs1 := sumCost_unit F (pointCost F.tiny) x fun q => (pointCost_unit (hs q)).1
    rw [Functor.nloptRPY, Functor.weighted, mul_div_assoc] at hc
    have := unweightedR_err hu F hm ht hr hs1.1 hs1.2 (sqrt_nonneg _) hc (trans3R_roundings hu F x) (rotRPYR_roundings hu F x) (by omega) (by omega)
    rw [mean_of F hp, abs_of_nonneg (show 0 ≤ F.rotRPY x from sqrt_nonneg _)] at this
    simpa only [Functor.nloptScoreRPYR, Functor.trans3, Functor.rotRPY, hypot3, sq] using this

/-- **C126** (order). If no point costs more in `F'` than in `F`, at the same pose and with the same members otherwise, then the computed cost is not higher either: rounding does not reverse a comparison of maps. The computed sum of the costs is
between 0 and the number of points, exactly. -/
theorem C126_order (R : Rounding ℝ) {n d : Nat} (F : Functor n d) (hR : CountsTo R F.points.length) (hp : F.points ≠ []) (x : Fin n → ℝ) :
    (UnitScores F → 0 ≤ F.sumCostR R (pointCostR R F.tiny) x ∧ F.sumCostR R (pointCostR R F.tiny) x ≤ F.points.length ∧
      0 ≤ F.sumCostR R (pointCostSkipR R F.tiny) x ∧ F.sumCostR R (pointCostSkipR R F.tiny) x ≤ F.points.length) ∧
    (0 ≤ F.mapW → ∀ (sample' : (Fin d → ℝ) → Fl ℝ) (trans rot : ℝ), (∀ p ∈ F.points, properScore F.tiny (F.sample (F.act x p)) ≤ properScore F.tiny (sample' (F.act x p))) →
      ({ F with sample := sample' } : Functor n d).weightedR R (({ F with sample := sample' } : Functor n d).sumCostR R (pointCostR R F.tiny) x) trans rot ≤
        F.weightedR R (F.sumCostR R (pointCostR R F.tiny) x) trans rot) := by
  have h1 : R.rnd 1 = 1 := by simpa using hR.nat 1 (List.length_pos_iff.2 hp)
  have h0 : R.rnd 0 = 0 := by simpa using hR.nat 0 (Nat.zero_le _)
  constructor
  · intro hs
    have a := sumCostR_count F hR _ _ x (fun q => (pointCost_unit (hs q)).1) (fun s => pointCostR_eq h1 F.tiny s) hp
    have b := sumCostR_count F hR _ _ x (fun q => (pointCost_unit (hs q)).2) (fun s => pointCostSkipR_eq h0 F.tiny s) hp
    exact ⟨a.1, a.2, b.1, b.2⟩
  · intro hm sample' trans rot h
    have key : ∀ (l : List (Fin d → ℝ)) (a b : ℝ), a ≤ b → (∀ p ∈ l, properScore F.tiny (F.sample (F.act x p)) ≤ properScore F.tiny (sample' (F.act x p))) →
        l.foldl (fun fi p => R.rnd (fi + pointCostR R F.tiny (sample' (F.act x p)))) a ≤ l.foldl (fun fi p => R.rnd (fi + pointCostR R F.tiny (F.sample (F.act x p)))) b := by
      intro l
      induction l with
      | nil => exact fun a b hab _ => hab
      | cons p l ih =>
        intro a b hab hl
        refine ih _ _ (R.mono _ _ (add_le_add hab ?_)) fun p hp => hl p (List.mem_cons_of_mem _ hp)
        rw [pointCostR_eq h1, pointCostR_eq h1, pointCost_eq, pointCost_eq]
        exact R.mono _ _ (by linarith [hl p (List.mem_cons_self ..)])
    have hk := key F.points 0 0 le_rfl h
    unfold Functor.weightedR
    exact R.mono _ _ (add_le_add (R.mono _ _ (add_le_add (R.mono _ _ (div_le_div_of_nonneg_right (R.mono _ _ (mul_le_mul_of_nonneg_left hk hm)) (Nat.cast_nonneg _))) le_rfl)) le_rfl)

/-- **C126** (trust region). If the computed cost of a pose is at most that of the initial guess, then the weighted distance from the guess plus the weighted angle is at most the map weight, up to a number of roundings that does not depend on the
number of points. -/
theorem C126_trust (R : Rounding ℝ) :
    (∀ (F : Functor 3 2) (k : Nat) (hyp : ℝ → ℝ → ℝ) (x : Fin 3 → ℝ), CountsTo R F.points.length → HypotAccurate R k hyp → (∀ a, F.dif a a = 0) → UnitScores F → F.points ≠ [] → 0 ≤ F.mapW → 0 ≤ F.transW → 0 ≤ F.rotW →
      F.nlopt2R R hyp x ≤ F.nlopt2R R hyp F.guess →
      (F.transW * √((x 0 - F.guess 0) ^ 2 + (x 1 - F.guess 1) ^ 2) + F.rotW * |F.dif (x 2) (F.guess 2)|) * (1 - R.u) ^ (k + 4) ≤ F.mapW * (1 + R.u) ^ 2) ∧
    (∀ (F : Functor 6 3) (x : Fin 6 → ℝ), CountsTo R F.points.length → (∀ a, F.dif a a = 0) → UnitScores F → F.points ≠ [] → 0 ≤ F.mapW → 0 ≤ F.transW → 0 ≤ F.rotW →
      F.nloptRPYR R x ≤ F.nloptRPYR R F.guess ∨ F.nloptOccRPYR R x ≤ F.nloptOccRPYR R F.guess →
      (F.transW * √((x 0 - F.guess 0) ^ 2 + (x 1 - F.guess 1) ^ 2 + (x 2 - F.guess 2) ^ 2) +
        F.rotW * √(F.dif (x 3) (F.guess 3) ^ 2 + F.dif (x 4) (F.guess 4) ^ 2 + F.dif (x 5) (F.guess 5) ^ 2)) * (1 - R.u) ^ 7 ≤ F.mapW * (1 + R.u) ^ 2) := by
  have key : ∀ {n d : Nat} (F : Functor n d) (c cR : Fl ℝ → ℝ) (x : Fin n → ℝ) (s t s₀ r q r₀ : ℝ) (kt kr N : Nat), CountsTo R F.points.length → F.points ≠ [] → (∀ q, 0 ≤ c (F.sample q) ∧ c (F.sample q) ≤ 1) →
      (∀ s, cR s = R.rnd (c s)) → 0 ≤ F.mapW → 0 ≤ F.transW → 0 ≤ F.rotW → 0 ≤ t → Roundings R.u kt s t → Roundings R.u kr |r| |q| → kt + 1 ≤ N → kr + 1 ≤ N → s₀ = 0 → r₀ = 0 →
      F.weightedR R (F.sumCostR R cR x) s r ≤ F.weightedR R (F.sumCostR R cR F.guess) s₀ r₀ →
      (F.transW * t + F.rotW * |q|) * (1 - R.u) ^ (N + 2) ≤ F.mapW * (1 + R.u) ^ 2 := by
    rintro n d F c cR x s t s₀ r q r₀ kt kr N hR hp hc he hm ht hr ht0 hs hq h2 h3 rfl rfl h
    have hu : R.u ≤ 1 := hR.fine.trans (by norm_num)
    have hz : R.rnd 0 = 0 := by simpa using hR.nat 0 (Nat.zero_le _)
    have hlen : (0 : ℝ) < F.points.length := by exact_mod_cast List.length_pos_iff.2 hp
    have hx := sumCostR_count F hR c cR x hc he hp
    have hg := sumCostR_count F hR c cR F.guess hc he hp
    have n2 : 0 ≤ F.transW * t := mul_nonneg ht ht0
    have n3 : 0 ≤ F.rotW * |q| := mul_nonneg hr (abs_nonneg _)
    have e2 := ((hs.mul ht).rnd hu n2).mono R.nonneg hu n2 h2
    have e3 := ((hq.mul hr).rnd hu n3).mono R.nonneg hu n3 (h3.trans (Nat.le_succ N))
    have low := ((((e2.rnd hu n2)).add e3).rnd hu (add_nonneg n2 n3)).1
    refine low.trans ?_
    unfold Functor.weightedR at h
    rw [abs_zero, mul_zero, mul_zero, hz, add_zero, add_zero, hR.idem, hR.idem] at h
    have r0 : ∀ {y}, 0 ≤ y → 0 ≤ R.rnd y := fun {y} hy => by rw [← hz]; exact R.mono _ _ hy
    have up : R.rnd (R.rnd (F.mapW * F.sumCostR R cR F.guess) / (F.points.length : ℝ)) ≤ F.mapW * (1 + R.u) ^ 2 := by
      have b1 : R.rnd (F.mapW * F.sumCostR R cR F.guess) ≤ F.mapW * F.points.length * (1 + R.u) :=
        (R.mono _ _ (mul_le_mul_of_nonneg_left hg.2 hm)).trans (R.sides (mul_nonneg hm hlen.le)).2
      have b2 : R.rnd (F.mapW * F.sumCostR R cR F.guess) / (F.points.length : ℝ) ≤ F.mapW * (1 + R.u) := by
        rw [div_le_iff₀ hlen]
        exact b1.trans (le_of_eq (by ring))
      exact (R.mono _ _ b2).trans ((R.sides (mul_nonneg hm (by linarith [R.nonneg]))).2.trans (le_of_eq (by ring)))
    refine le_trans (R.mono _ _ (add_le_add (R.mono _ _ ?_) le_rfl)) (h.trans up)
    have : 0 ≤ R.rnd (R.rnd (F.mapW * F.sumCostR R cR x) / (F.points.length : ℝ)) := r0 (div_nonneg (r0 (mul_nonneg hm hx.1)) hlen.le)
    linarith
  constructor
  · intro F k hyp x hR hh hd hs hp hm ht hr h
    have hu : R.u ≤ 1 := hR.fine.trans (by norm_num)
    have hz : R.rnd 0 = 0 := by simpa using hR.nat 0 (Nat.zero_le _)
    have h1 : R.rnd 1 = 1 := by simpa using hR.nat 1 (List.length_pos_iff.2 hp)
    have hg : F.trans2R R hyp F.guess = 0 := by
      have := trans2R_roundings hu hh F F.guess
      have e : F.trans2 F.guess = 0 := hypot2_eq_zero.2 ⟨sub_self _, sub_self _⟩
      rw [e] at this
      exact le_antisymm (by simpa using this.2) (by simpa using this.1)
    have := key F _ _ x _ _ _ _ _ _ _ _ (k + 2) hR hp (fun q => (pointCost_unit (hs q)).1) (fun s => pointCostR_eq h1 F.tiny s) hm ht hr (sqrt_nonneg _) (trans2R_roundings hu hh F x) (Roundings.refl _ |F.rot2 x|) le_rfl (by omega) hg (hd _) h
    simpa only [Functor.trans2, Functor.rot2, hypot2, sq] using this
  · intro F x hR hd hs hp hm ht hr h
    have hu : R.u ≤ 1 := hR.fine.trans (by norm_num)
    have hz : R.rnd 0 = 0 := by simpa using hR.nat 0 (Nat.zero_le _)
    have h1 : R.rnd 1 = 1 := by simpa using hR.nat 1 (List.length_pos_iff.2 hp)
    have hg : F.trans3R R F.guess = 0 := by simp [Functor.trans3R, hypot3R, hz]
    have hq : F.rotRPYR R F.guess = 0 := by simp [Functor.rotRPYR, hypot3R, hz, hd]
    have : (F.transW * F.trans3 x + F.rotW * |F.rotRPY x|) * (1 - R.u) ^ 7 ≤ F.mapW * (1 + R.u) ^ 2 := by
      rcases h with h | h
      · exact key F _ _ x _ _ _ _ _ _ _ _ 5 hR hp (fun q => (pointCost_unit (hs q)).1) (fun s => pointCostR_eq h1 F.tiny s) hm ht hr (sqrt_nonneg _) (trans3R_roundings hu F x) (rotRPYR_roundings hu F x) le_rfl (by omega) hg hq h
      · exact key F _ _ x _ _ _ _ _ _ _ _ 5 hR hp (fun q => (pointCost_unit (hs q)).2) (fun s => pointCostSkipR_eq hz F.tiny s) hm ht hr (sqrt_nonneg _) (trans3R_roundings hu F x) (rotRPYR_roundings hu F x) le_rfl (by omega) hg hq h
    rw [abs_of_nonneg (show 0 ≤ F.rotRPY x from sqrt_nonneg _)] at this
    simpa only [Functor.trans3, Functor.rotRPY, hypot3, sq] using this

/-! ### Doubles -/

theorem double_counts (n : Nat) (hn : n ≤ 2 ^ 53) : CountsTo (ieee ℝ 53 (by norm_num)) n where
  toArithmetic := ieee_arithmetic 53 (by norm_num)
  nat m hm := toBits_nat 53 (by norm_num) (hm.trans hn)

theorem pow_sub_one_le {u : ℝ} (h0 : 0 ≤ u) (n : Nat) (h : n * u ≤ 1) : (1 + u) ^ n - 1 ≤ 2 * (n * u) := by
  have h1 : (1 + u) ^ n ≤ Real.exp (n * u) := by
    rw [Real.exp_nat_mul]
    exact pow_le_pow_left₀ (by linarith) (by linarith [Real.add_one_le_exp u]) n
  have h2 := Real.abs_exp_sub_one_le (x := n * u) (by rwa [abs_of_nonneg (by positivity)])
  rw [abs_of_nonneg (show 0 ≤ (n : ℝ) * u by positivity)] at h2
  linarith [(abs_le.1 h2).2]

/-- **C126** (an instance). With numbers of type double, a `hypot` that is correct up to 2 roundings and a scan of at most a million points, the computed cost in 2D has a relative error below `10^-9`. A pose that is not worse than the guess, as
computed, has a score with an error below `4 · 10^-9`, and lies in the trust region up to a factor of `1 + 10^-14`. -/
theorem C126_double (F : Functor 3 2) (hyp : ℝ → ℝ → ℝ) (x : Fin 3 → ℝ) (hh : HypotAccurate (ieee ℝ 53 (by norm_num)) 2 hyp) (hs : UnitScores F) (hp : F.points ≠ []) (hn : F.points.length ≤ 10 ^ 6) (hm : 0 < F.mapW) (ht : 0 ≤ F.transW)
    (hr : 0 ≤ F.rotW) :
    |F.nlopt2R (ieee ℝ 53 (by norm_num)) hyp x - F.nlopt2 x| ≤ 1 / 10 ^ 9 * F.nlopt2 x ∧
    ((∀ a, F.dif a a = 0) → F.nlopt2R (ieee ℝ 53 (by norm_num)) hyp x ≤ F.nlopt2R (ieee ℝ 53 (by norm_num)) hyp F.guess →
      F.transW * √((x 0 - F.guess 0) ^ 2 + (x 1 - F.guess 1) ^ 2) + F.rotW * |F.dif (x 2) (F.guess 2)| ≤ F.mapW * (1 + 1 / 10 ^ 14) ∧
      |F.nloptScore2R (ieee ℝ 53 (by norm_num)) hyp x (F.nlopt2R (ieee ℝ 53 (by norm_num)) hyp x) - mean (F.points.map fun p => properScore F.tiny (F.sample (F.act x p)))| ≤ 4 / 10 ^ 9) := by
  set R := ieee ℝ 53 (by norm_num) with hRdef
  have hu : R.u = 1 / 9007199254740992 := by
    show ((2 : ℝ) ^ 53)⁻¹ = _
    norm_num
  have hR := double_counts F.points.length (hn.trans (by norm_num))
  have hu1 : R.u ≤ 1 := by rw [hu]; norm_num
  have hE : ∀ j : Nat, j ≤ 10 ^ 6 + 11 → (1 + R.u) ^ j - 1 ≤ 1 / 10 ^ 9 := by
    intro j hj
    have hj' : (j : ℝ) ≤ 10 ^ 6 + 11 := by exact_mod_cast hj
    have b : (j : ℝ) * R.u ≤ (10 ^ 6 + 11) * R.u := mul_le_mul_of_nonneg_right hj' R.nonneg
    rw [hu] at b
    have b2 : ((10 : ℝ) ^ 6 + 11) * (1 / 9007199254740992) ≤ 1 / (2 * 10 ^ 9) := by norm_num
    have := pow_sub_one_le R.nonneg j (by rw [hu]; exact b.trans (b2.trans (by norm_num)))
    rw [hu] at this ⊢
    refine this.trans ?_
    have := b.trans b2
    calc 2 * ((j : ℝ) * (1 / 9007199254740992)) ≤ 2 * (1 / (2 * 10 ^ 9)) := by linarith
      _ = _ := by norm_num
  have hcost := (C126_cost R).1 F 2 hyp x hR hh hs hp hm.le ht hr
  have n0 : 0 ≤ F.nlopt2 x := by
    have h1 := sumCost_unit F (pointCost F.tiny) x fun q => (pointCost_unit (hs q)).1
    unfold Functor.nlopt2 Functor.weighted
    rw [mul_div_assoc]
    exact add_nonneg (add_nonneg (mul_nonneg hm.le h1.1) (mul_nonneg ht (sqrt_nonneg _))) (mul_nonneg hr (abs_nonneg _))
  refine ⟨(hcost.err R.nonneg hu1 n0).trans (mul_le_mul_of_nonneg_right (hE _ (by omega)) n0), fun hd h => ?_⟩
  have h1 := (C126_trust R).1 F 2 hyp x hR hh hd hs hp hm.le ht hr h
  have h2 := (C126_score R).1 F 2 hyp x hR hh hs hp hm ht hr
  set T := F.transW * √((x 0 - F.guess 0) ^ 2 + (x 1 - F.guess 1) ^ 2) + F.rotW * |F.dif (x 2) (F.guess 2)| with hT
  have hT0 : 0 ≤ T := add_nonneg (mul_nonneg ht (sqrt_nonneg _)) (mul_nonneg hr (abs_nonneg _))
  have h3 : T ≤ F.mapW * (1 + 1 / 10 ^ 14) := by
    have c1 : (1 + R.u) ^ 2 ≤ (1 + 1 / 10 ^ 14) * (1 - R.u) ^ (2 + 4) := by rw [hu]; norm_num
    have c2 : 0 < (1 - R.u) ^ (2 + 4) := by rw [hu]; norm_num
    refine le_of_mul_le_mul_right (h1.trans ?_) c2
    rw [mul_assoc]
    exact mul_le_mul_of_nonneg_left c1 hm.le
  refine ⟨h3, h2.trans ?_⟩
  have h4 : 2 * T / F.mapW ≤ 2 * (1 + 1 / 10 ^ 14) := by
    rw [div_le_iff₀ hm]
    linarith
  calc _ ≤ 1 / 10 ^ 9 * (1 + 2 * (1 + 1 / 10 ^ 14)) := mul_le_mul (hE _ (by omega)) (by linarith) (by positivity) (by norm_num)
    _ ≤ _ := by norm_num

/-- a scan of two points, one of them with a score of 1/3, and a pose away from the guess that is better than the guess as computed -/
example : ∃ (F : Functor 3 2) (hyp : ℝ → ℝ → ℝ) (x : Fin 3 → ℝ), HypotAccurate (ieee ℝ 53 (by norm_num)) 2 hyp ∧ UnitScores F ∧ F.points.length = 2 ∧ 0 < F.mapW ∧ 0 < F.transW ∧ 0 < F.rotW ∧ (∀ a, F.dif a a = 0) ∧ x ≠ F.guess ∧
    F.nlopt2R (ieee ℝ 53 (by norm_num)) hyp x ≤ F.nlopt2R (ieee ℝ 53 (by norm_num)) hyp F.guess := by
  set R := ieee ℝ 53 (by norm_num) with hRdef
  have hu : R.u = 1 / 9007199254740992 := by
    show ((2 : ℝ) ^ 53)⁻¹ = _
    norm_num
  have hu1 : R.u ≤ 1 := by rw [hu]; norm_num
  let F : Functor 3 2 :=
    { points := [![0, 0], ![1, 0]], sample := fun q => .fin (if q 0 = 1 then 1 / 2 else if q 0 = 2 then 1 / 3 else 0), act := fun x p => ![p 0 + x 0, p 1 + x 1], dif := fun a b => a - b, guess := 0, transW := 1, rotW := 1, mapW := 100,
      tiny := 1 / 1024 }
  have hh : HypotAccurate R 2 fun a b => √(a ^ 2 + b ^ 2) := fun a b => (Roundings.refl _ _).mono R.nonneg hu1 (sqrt_nonneg _) (Nat.zero_le _)
  have hs : UnitScores F := by
    intro q s h
    rw [← Fl.fin.inj h]
    split
    · norm_num
    · split <;> norm_num
  have hR := double_counts 2 (by norm_num)
  have hc := fun x => (C126_cost R).1 F 2 _ x hR hh hs (by simp [F]) (by simp [F]) (by simp [F]) (by simp [F])
  refine ⟨F, fun a b => √(a ^ 2 + b ^ 2), ![1, 0, 0], hh, hs, rfl, by simp [F], by simp [F], by simp [F], by simp [F], fun h => ?_, ?_⟩
  · have := congrFun h 0
    simp [F] at this
  · have e1 : F.nlopt2 ![1, 0, 0] = 178 / 3 := by
      simp only [F, Functor.nlopt2, Functor.weighted, Functor.sumCost, Functor.trans2, Functor.rot2, hypot2, pointCost, value, Fl.isNormal]
      norm_num [abs_of_pos]
      rfl
    have e2 : F.nlopt2 F.guess = 75 := by
      simp only [F, Functor.nlopt2, Functor.weighted, Functor.sumCost, Functor.trans2, Functor.rot2, hypot2, pointCost, value, Fl.isNormal]
      norm_num [abs_of_pos]
    have h1 := (hc ![1, 0, 0]).2
    have h2 := (hc F.guess).1
    rw [e1] at h1
    rw [e2] at h2
    refine h1.trans (le_trans ?_ h2)
    have hl : F.points.length = 2 := rfl
    rw [hl, hu]
    norm_num

end Ndt
