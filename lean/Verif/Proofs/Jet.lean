import Verif.Model.Jet
import Verif.Props.MatchFrame
import Mathlib.Analysis.SpecialFunctions.ExpDeriv
import Mathlib.Analysis.SpecialFunctions.Trigonometric.Deriv
import Mathlib.Analysis.SpecialFunctions.Sqrt
import Mathlib.Analysis.Calculus.FDeriv.Pi
import Mathlib.Analysis.Calculus.LocalExtr.Basic

/-!
Lemmas for C102: `Jet` arithmetic computes values and derivatives, and a derivative is determined by the values in a cone.
-/

namespace Ndt

open Real Matching Filter Topology

/-- the linear function with the coefficients `v` -/
def Spec.lin {n : Nat} (v : Fin n → ℝ) : (Fin n → ℝ) →L[ℝ] ℝ := ∑ k, v k • ContinuousLinearMap.proj (R := ℝ) (φ := fun _ : Fin n => ℝ) k

open Spec

variable {n : Nat}

theorem lin_apply (v u : Fin n → ℝ) : lin v u = ∑ k, v k * u k := by
  simp [lin, ContinuousLinearMap.sum_apply]

theorem lin_zero : lin (0 : Fin n → ℝ) = 0 := by
  ext u; simp [lin_apply]

theorem lin_add (v w : Fin n → ℝ) : lin (v + w) = lin v + lin w := by
  refine ContinuousLinearMap.ext fun u => ?_
  simp [lin_apply, add_mul, Finset.sum_add_distrib]

theorem lin_smul (c : ℝ) (v : Fin n → ℝ) : lin (c • v) = c • lin v := by
  refine ContinuousLinearMap.ext fun u => ?_
  simp [lin_apply, Finset.mul_sum, mul_assoc]

theorem lin_neg (v : Fin n → ℝ) : lin (-v) = -lin v := by
  refine ContinuousLinearMap.ext fun u => ?_
  simp [lin_apply]

theorem lin_sub (v w : Fin n → ℝ) : lin (v - w) = lin v - lin w := by
  rw [sub_eq_add_neg, lin_add, lin_neg, sub_eq_add_neg]

theorem lin_single (k : Fin n) : lin (Pi.single k 1) = ContinuousLinearMap.proj (R := ℝ) (φ := fun _ : Fin n => ℝ) k := by
  refine ContinuousLinearMap.ext fun u => ?_
  simp [lin_apply, Pi.single_apply]

theorem lin_sum {m : Nat} (v : Fin m → Fin n → ℝ) : lin (∑ i, v i) = ∑ i, lin (v i) := by
  refine ContinuousLinearMap.ext fun u => ?_
  simp only [lin_apply, Finset.sum_apply, ContinuousLinearMap.sum_apply, Finset.sum_mul]
  rw [Finset.sum_comm]

theorem lin_inj {v w : Fin n → ℝ} (h : lin v = lin w) : v = w := by
  funext k
  have := congrArg (fun L => L (Pi.single k 1)) h
  simpa [lin_apply, Pi.single_apply] using this

/-- the `Jet` has the value and the derivative of `F` at `x` -/
def Tracks (x : Fin n → ℝ) (F : (Fin n → ℝ) → ℝ) (j : Jet n) : Prop := j.a = F x ∧ HasFDerivAt F (lin j.v) x

namespace Tracks
variable {x : Fin n → ℝ} {F G : (Fin n → ℝ) → ℝ} {j k : Jet n}

theorem const (c : ℝ) : Tracks x (fun _ => c) (Jet.const c) :=
  ⟨rfl, by simpa [Jet.const, lin_zero] using hasFDerivAt_const c x⟩

theorem var (i : Fin n) : Tracks x (fun y => y i) (Jet.var x i) :=
  ⟨rfl, by simpa only [Jet.var, lin_single] using hasFDerivAt_apply (𝕜 := ℝ) i x⟩

theorem add (h : Tracks x F j) (h' : Tracks x G k) : Tracks x (fun y => F y + G y) (j + k) :=
  ⟨by show j.a + k.a = _; rw [h.1, h'.1], by show HasFDerivAt _ (lin (j.v + k.v)) x; rw [lin_add]; exact h.2.add h'.2⟩

theorem sub (h : Tracks x F j) (h' : Tracks x G k) : Tracks x (fun y => F y - G y) (j - k) :=
  ⟨by show j.a - k.a = _; rw [h.1, h'.1], by show HasFDerivAt _ (lin (j.v - k.v)) x; rw [lin_sub]; exact h.2.sub h'.2⟩

theorem neg (h : Tracks x F j) : Tracks x (fun y => -F y) (-j) :=
  ⟨by show -j.a = _; rw [h.1], by show HasFDerivAt _ (lin (-j.v)) x; rw [lin_neg]; exact h.2.neg⟩

theorem mul (h : Tracks x F j) (h' : Tracks x G k) : Tracks x (fun y => F y * G y) (j * k) :=
  ⟨by show j.a * k.a = _; rw [h.1, h'.1], by
    show HasFDerivAt _ (lin (j.a • k.v + k.a • j.v)) x
    rw [lin_add, lin_smul, lin_smul, h.1, h'.1]
    exact h.2.mul h'.2⟩

theorem scale (s : ℝ) (h : Tracks x F j) : Tracks x (fun y => s * F y) (j.scale s) :=
  ⟨by show s * j.a = _; rw [h.1], by show HasFDerivAt _ (lin (s • j.v)) x; rw [lin_smul]; exact h.2.const_mul s⟩

theorem sum {m : Nat} {F : Fin m → (Fin n → ℝ) → ℝ} {j : Fin m → Jet n} (h : ∀ i, Tracks x (F i) (j i)) : Tracks x (fun y => ∑ i, F i y) (Jet.sum j) :=
  ⟨by show ∑ i, (j i).a = _; exact Finset.sum_congr rfl fun i _ => (h i).1, by
    show HasFDerivAt _ (lin (∑ i, (j i).v)) x
    rw [lin_sum]
    exact HasFDerivAt.fun_sum fun i _ => (h i).2⟩

theorem exp (h : Tracks x F j) : Tracks x (fun y => Real.exp (F y)) j.exp :=
  ⟨by show Real.exp j.a = _; rw [h.1], by show HasFDerivAt _ (lin (Real.exp j.a • j.v)) x; rw [lin_smul, h.1]; exact h.2.exp⟩

theorem sin (h : Tracks x F j) : Tracks x (fun y => Real.sin (F y)) j.sin :=
  ⟨by show Real.sin j.a = _; rw [h.1], by show HasFDerivAt _ (lin (Real.cos j.a • j.v)) x; rw [lin_smul, h.1]; exact h.2.sin⟩

theorem cos (h : Tracks x F j) : Tracks x (fun y => Real.cos (F y)) j.cos :=
  ⟨by show Real.cos j.a = _; rw [h.1], by show HasFDerivAt _ (lin (-Real.sin j.a • j.v)) x; rw [lin_smul, h.1]; exact h.2.cos⟩

theorem sqrt (h : Tracks x F j) (h0 : F x ≠ 0) : Tracks x (fun y => √(F y)) j.sqrt :=
  ⟨by show √j.a = _; rw [h.1], by show HasFDerivAt _ (lin ((1 / (2 * √j.a)) • j.v)) x; rw [lin_smul, h.1]; exact h.2.sqrt h0⟩

theorem congr (h : Tracks x F j) (e : ∀ y, G y = F y) : Tracks x G j := by
  have : G = F := funext e
  rw [this]; exact h

end Tracks

/-! ### derivatives from values in a cone -/

theorem eq_zero_of_ray {H : (Fin n → ℝ) → ℝ} {K : (Fin n → ℝ) →L[ℝ] ℝ} {x w : Fin n → ℝ} (hH : HasFDerivAt H K x) (h0 : H x = 0) (h : ∀ᶠ s in 𝓝[>] (0 : ℝ), H (x + s • w) = 0) : K w = 0 := by
  have hl : HasDerivAt (fun s : ℝ => x + s • w) w 0 := by
    simpa using ((hasDerivAt_id (0 : ℝ)).smul_const w).const_add x
  have hd : HasDerivAt (fun s : ℝ => H (x + s • w)) (K w) 0 := by
    have hH' : HasFDerivAt H K (x + (0 : ℝ) • w) := by simpa using hH
    exact hH'.comp_hasDerivAt 0 hl
  have h1 : HasDerivWithinAt (fun _ : ℝ => (0 : ℝ)) (K w) (Set.Ioi 0) 0 := by
    refine hd.hasDerivWithinAt.congr_of_eventuallyEq ?_ (by simpa using h0.symm)
    filter_upwards [h] with s hs using hs.symm
  exact (uniqueDiffWithinAt_Ioi (0 : ℝ)).eq_deriv _ h1 (hasDerivWithinAt_const _ _ _)

theorem fderiv_eq_of_cone {F G : (Fin n → ℝ) → ℝ} {L M : (Fin n → ℝ) →L[ℝ] ℝ} {x e : Fin n → ℝ} {S : Set (Fin n → ℝ)} (hF : HasFDerivAt F L x) (hG : HasFDerivAt G M x) (hx : F x = G x)
    (hS : ∀ᶠ y in 𝓝 x, y ∈ S → F y = G y) (hc : ∀ u, ∃ c0 : ℝ, ∀ c, c0 ≤ c → ∀ᶠ s in 𝓝[>] (0 : ℝ), x + s • (u + c • e) ∈ S) : L = M := by
  have hH : HasFDerivAt (fun y => F y - G y) (L - M) x := hF.sub hG
  have key : ∀ w, (∀ᶠ s in 𝓝[>] (0 : ℝ), x + s • w ∈ S) → (L - M) w = 0 := by
    intro w hw
    refine eq_zero_of_ray hH (by simp [hx]) ?_
    have hl : Tendsto (fun s : ℝ => x + s • w) (𝓝[>] 0) (𝓝 x) := by
      have : Continuous (fun s : ℝ => x + s • w) := by fun_prop
      have h := this.tendsto 0
      simp only [zero_smul, add_zero] at h
      exact h.mono_left nhdsWithin_le_nhds
    filter_upwards [hw, hl.eventually hS] with s h1 h2
    rw [h2 h1, sub_self]
  refine ContinuousLinearMap.ext fun u => ?_
  obtain ⟨c0, h⟩ := hc u
  have h1 := key _ (h c0 le_rfl)
  have h2 := key _ (h (c0 + 1) (by linarith))
  rw [map_add, map_smul] at h1 h2
  have he : (L - M) e = 0 := by
    have : (c0 + 1) • (L - M) e - c0 • (L - M) e = 0 := by linarith
    simpa [add_mul] using this
  rw [he, smul_zero, add_zero] at h1
  have := h1
  simp only [ContinuousLinearMap.sub_apply] at this
  linarith

/-- along a ray with positive derivative the function increases at first -/
theorem eventually_gt_of_pos {P : (Fin n → ℝ) → ℝ} {K : (Fin n → ℝ) →L[ℝ] ℝ} {x w : Fin n → ℝ} (hP : HasFDerivAt P K x) (h : 0 < K w) : ∀ᶠ s in 𝓝[>] (0 : ℝ), P x < P (x + s • w) := by
  have hl : HasDerivAt (fun s : ℝ => x + s • w) w 0 := by
    simpa using ((hasDerivAt_id (0 : ℝ)).smul_const w).const_add x
  have hd : HasDerivAt (fun s : ℝ => P (x + s • w)) (K w) 0 := by
    have hP' : HasFDerivAt P K (x + (0 : ℝ) • w) := by simpa using hP
    exact hP'.comp_hasDerivAt 0 hl
  have ht := (hasDerivAt_iff_tendsto_slope.1 hd).eventually (lt_mem_nhds h)
  have ht' : ∀ᶠ s in 𝓝[>] (0 : ℝ), 0 < slope (fun s : ℝ => P (x + s • w)) 0 s := by
    refine ht.filter_mono (nhdsWithin_mono _ ?_)
    intro s hs
    exact ne_of_gt hs
  filter_upwards [ht', self_mem_nhdsWithin] with s hs h0
  have h0' : (0 : ℝ) < s := h0
  rw [slope_def_field] at hs
  simp only [zero_smul, add_zero, sub_zero] at hs
  have := (div_pos_iff_of_pos_right h0').1 hs
  linarith

theorem ray_tendsto (x w : Fin n → ℝ) : Tendsto (fun s : ℝ => x + s • w) (𝓝[>] 0) (𝓝 x) := by
  have : Continuous (fun s : ℝ => x + s • w) := by fun_prop
  have h := this.tendsto 0
  simp only [zero_smul, add_zero] at h
  exact h.mono_left nhdsWithin_le_nhds

/-- floors of functions that increase along `e` form a cone -/
theorem floor_cone {d : Nat} {P : (Fin n → ℝ) → Fin d → ℝ} {K : Fin d → (Fin n → ℝ) →L[ℝ] ℝ} {x e : Fin n → ℝ} (hP : ∀ a, HasFDerivAt (fun y => P y a) (K a) x) (he : ∀ a, K a e = 1) {ρ : ℝ} (hρ : 0 < ρ) (u : Fin n → ℝ) :
    ∃ c0 : ℝ, ∀ c, c0 ≤ c → ∀ᶠ s in 𝓝[>] (0 : ℝ), x + s • (u + c • e) ∈ {y | ∀ a, ⌊P y a * ρ⌋ = ⌊P x a * ρ⌋} := by
  refine ⟨1 + ∑ a, |K a u|, fun c hc => ?_⟩
  have hall : ∀ a, ∀ᶠ s in 𝓝[>] (0 : ℝ), ⌊P (x + s • (u + c • e)) a * ρ⌋ = ⌊P x a * ρ⌋ := by
    intro a
    have hpos : 0 < K a (u + c • e) := by
      rw [map_add, map_smul, he, smul_eq_mul, mul_one]
      have h1 : |K a u| ≤ ∑ a, |K a u| := Finset.single_le_sum (f := fun a => |K a u|) (fun i _ => abs_nonneg _) (Finset.mem_univ a)
      have h2 := neg_abs_le (K a u)
      linarith
    have h1 := eventually_gt_of_pos (hP a) hpos
    have hcont : ContinuousAt (fun y => P y a * ρ) x := (hP a).continuousAt.mul continuousAt_const
    have h2 : ∀ᶠ y in 𝓝 x, P y a * ρ < ⌊P x a * ρ⌋ + 1 := hcont.eventually (gt_mem_nhds (Int.lt_floor_add_one _))
    filter_upwards [h1, (ray_tendsto x (u + c • e)).eventually h2] with s hs1 hs2
    rw [Int.floor_eq_iff]
    have := Int.floor_le (P x a * ρ)
    have := mul_lt_mul_of_pos_right hs1 hρ
    exact ⟨by linarith, hs2⟩
  filter_upwards [eventually_all.2 hall] with s hs
  exact hs

/-- away from the integers, floors do not change in a neighbourhood -/
theorem floor_eventually {d : Nat} {P : (Fin n → ℝ) → Fin d → ℝ} {x : Fin n → ℝ} (hP : ∀ a, ContinuousAt (fun y => P y a) x) {ρ : ℝ} (h : ∀ a, ∀ k : ℤ, P x a * ρ ≠ k) :
    ∀ᶠ y in 𝓝 x, ∀ a, ⌊P y a * ρ⌋ = ⌊P x a * ρ⌋ := by
  refine eventually_all.2 fun a => ?_
  have hcont : ContinuousAt (fun y => P y a * ρ) x := (hP a).mul continuousAt_const
  have h1 : ∀ᶠ y in 𝓝 x, P y a * ρ < ⌊P x a * ρ⌋ + 1 := hcont.eventually (gt_mem_nhds (Int.lt_floor_add_one _))
  have h2 : ∀ᶠ y in 𝓝 x, (⌊P x a * ρ⌋ : ℝ) < P y a * ρ := hcont.eventually (lt_mem_nhds (lt_of_le_of_ne (Int.floor_le _) fun e => h a _ e.symm))
  filter_upwards [h1, h2] with y hy1 hy2
  rw [Int.floor_eq_iff]
  exact ⟨hy2.le, hy1⟩

end Ndt
