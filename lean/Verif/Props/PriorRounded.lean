import Verif.Model.PriorRounded
import Verif.Props.PoseRounded
import Verif.Props.Angles
import Mathlib.Analysis.Real.Pi.Bounds
import Mathlib.Analysis.SpecialFunctions.Trigonometric.Bounds

/-! Property theorem C123: the priors of scan matching in floating point. They vanish exactly at the prior, respect half a turn exactly, and are close to the exact ones for all angles, however often they are wrapped. -/

namespace Ndt

open Real Matching Spec

/-- The constant `M_PI`: a number of the type, also after doubling, at most `π` and within `gap` of it. -/
structure Spec.PiConstant (R : Rounding ℝ) (pi gap : ℝ) : Prop where
  num : R.rnd pi = pi
  twice : R.rnd (2 * pi) = 2 * pi
  pos : 0 < pi
  le : pi ≤ π
  near : π - pi ≤ gap

/-- The functions of the mathematical library are accurate up to `e`, and results of `atan2` are at most `M_PI` in absolute value. -/
structure Spec.Accurate (L : LibM) (pi e : ℝ) : Prop where
  sin : ∀ x, |L.sin x - Real.sin x| ≤ e
  cos : ∀ x, |L.cos x - Real.cos x| ≤ e
  atan2 : ∀ y x, |L.atan2 y x - Matching.atan2 y x| ≤ e
  range : ∀ y x, |L.atan2 y x| ≤ pi
  small : e ≤ 1 / 64

/-! ### Accuracy of the normalised angle -/

theorem accurate_nonneg {L : LibM} {pi e : ℝ} (h : Accurate L pi e) : 0 ≤ e := (abs_nonneg _).trans (h.sin 0)

theorem sameAngle_sin {a b : ℝ} (h : SameAngle a b) : sin a = sin b ∧ cos a = cos b := by
  obtain ⟨k, hk⟩ := h
  have : a = b + k * (2 * π) := by linarith
  rw [this]
  exact ⟨sin_add_int_mul_two_pi b k, cos_add_int_mul_two_pi b k⟩

/-- the angle of a slightly wrong sine and cosine -/
theorem atan2_near {r s c e : ℝ} (hs : |s - sin r| ≤ e) (hc : |c - cos r| ≤ e) (he : e ≤ 1 / 64) : ∃ k, SameAngle k r ∧ |atan2 s c - k| ≤ 4 * e := by
  have he0 : 0 ≤ e := (abs_nonneg _).trans hs
  set a := atan2 s c with ha
  set ρ := ‖(⟨c, s⟩ : ℂ)‖ with hρ
  have ec : ρ * cos a = c := by rw [hρ, ha]; exact Complex.norm_mul_cos_arg ⟨c, s⟩
  have es : ρ * sin a = s := by rw [hρ, ha]; exact Complex.norm_mul_sin_arg ⟨c, s⟩
  have hsc := sin_sq_add_cos_sq r
  have b1 := abs_sin_le_one r
  have b2 := abs_cos_le_one r
  have p1 : |(s - sin r) * sin r| ≤ e := by
    rw [abs_mul]; exact (mul_le_mul hs b1 (abs_nonneg _) he0).trans (mul_one e).le
  have p2 : |(c - cos r) * cos r| ≤ e := by
    rw [abs_mul]; exact (mul_le_mul hc b2 (abs_nonneg _) he0).trans (mul_one e).le
  have p3 : |(s - sin r) * cos r| ≤ e := by
    rw [abs_mul]; exact (mul_le_mul hs b2 (abs_nonneg _) he0).trans (mul_one e).le
  have p4 : |(c - cos r) * sin r| ≤ e := by
    rw [abs_mul]; exact (mul_le_mul hc b1 (abs_nonneg _) he0).trans (mul_one e).le
  rw [abs_le] at p1 p2 p3 p4
  have hcos : 1 - 2 * e ≤ ρ * cos (a - r) := by
    have : ρ * cos (a - r) = 1 + (s - sin r) * sin r + (c - cos r) * cos r := by
      rw [cos_sub]
      have : ρ * (cos a * cos r + sin a * sin r) = (ρ * cos a) * cos r + (ρ * sin a) * sin r := by ring
      rw [this, ec, es]
      linear_combination hsc
    rw [this]; linarith [p1.1, p2.1]
  have hsin : |ρ * sin (a - r)| ≤ 2 * e := by
    have : ρ * sin (a - r) = (s - sin r) * cos r - (c - cos r) * sin r := by
      rw [sin_sub]
      have : ρ * (sin a * cos r - cos a * sin r) = (ρ * sin a) * cos r - (ρ * cos a) * sin r := by ring
      rw [this, ec, es]; ring
    rw [this, abs_le]; constructor <;> linarith [p3.1, p3.2, p4.1, p4.2]
  have hρ0 : 0 ≤ ρ := norm_nonneg _
  have hρ1 : 1 - 2 * e ≤ ρ := by
    have : ρ * cos (a - r) ≤ ρ := by nlinarith [cos_le_one (a - r)]
    linarith
  have hc0 : 0 < cos (a - r) := by
    by_contra h
    push Not at h
    nlinarith
  obtain ⟨d1, d2, d3⟩ := angleNorm_spec (a - r)
  obtain ⟨q1, q2⟩ := sameAngle_sin d3
  set δ := angleNorm (a - r)
  rw [← q1] at hsin
  rw [← q2] at hc0
  have hp := pi_pos
  have hδ : |δ| ≤ π / 2 := by
    by_contra h
    push Not at h
    rcases le_or_gt 0 δ with h0 | h0
    · rw [abs_of_nonneg h0] at h
      exact absurd (cos_nonpos_of_pi_div_two_le_of_le h.le (by linarith)) (not_le.2 hc0)
    · rw [abs_of_neg h0] at h
      have := cos_nonpos_of_pi_div_two_le_of_le h.le (by linarith)
      rw [cos_neg] at this
      exact absurd this (not_le.2 hc0)
  have hj := mul_abs_le_abs_sin hδ
  have hb : |δ| ≤ 4 * e := by
    rw [abs_mul, abs_of_nonneg hρ0] at hsin
    have h1 : (31 / 32) * |sin δ| ≤ 2 * e := by nlinarith [abs_nonneg (sin δ)]
    have h2 : |δ| ≤ π / 2 * |sin δ| := by
      have : |δ| = π / 2 * (2 / π * |δ|) := by field_simp
      rw [this]
      exact mul_le_mul_of_nonneg_left hj (by linarith)
    have := pi_lt_d2
    nlinarith [abs_nonneg (sin δ)]
  obtain ⟨k, hk⟩ := d3
  refine ⟨a - δ, ⟨-k, by push_cast; linarith⟩, ?_⟩
  rw [sub_sub_cancel]
  exact hb

theorem normR_near {L : LibM} {pi e : ℝ} (h : Accurate L pi e) (r : ℝ) : ∃ k, SameAngle k r ∧ |angleNormR L r - k| ≤ 5 * e := by
  obtain ⟨k, h1, h2⟩ := atan2_near (h.sin r) (h.cos r) h.small
  refine ⟨k, h1, ?_⟩
  have := h.atan2 (L.sin r) (L.cos r)
  have t := abs_add_le (angleNormR L r - atan2 (L.sin r) (L.cos r)) (atan2 (L.sin r) (L.cos r) - k)
  rw [sub_add_sub_cancel] at t
  unfold angleNormR at *
  linarith

/-! ### The difference of angles -/

theorem rnd_sign (R : Rounding ℝ) (hR : Arithmetic R) (x : ℝ) : (0 < R.rnd x ↔ 0 < x) ∧ (R.rnd x = 0 ↔ x = 0) := by
  have he := R.err x
  have hu := hR.fine
  have hz : R.rnd 0 = 0 := by have := R.err 0; simpa using this
  rcases lt_trichotomy x 0 with h | h | h
  · rw [abs_of_neg h, abs_le] at he
    have : R.rnd x < 0 := by nlinarith
    exact ⟨⟨fun h' => by linarith, fun h' => by linarith⟩, ⟨fun h' => by linarith, fun h' => by linarith⟩⟩
  · subst h
    simp [hz]
  · rw [abs_of_pos h, abs_le] at he
    have : 0 < R.rnd x := by nlinarith
    exact ⟨⟨fun _ => h, fun _ => this⟩, ⟨fun h' => by linarith, fun h' => by linarith⟩⟩

theorem normR_range {L : LibM} {pi e : ℝ} (h : Accurate L pi e) (r0 r : ℝ) : |angleNormR L r0 - angleNormR L r| ≤ 2 * pi := by
  have h1 : |angleNormR L r0| ≤ pi := h.range _ _
  have h2 : |angleNormR L r| ≤ pi := h.range _ _
  rw [abs_le] at *
  constructor <;> linarith [h1.1, h1.2, h2.1, h2.2]

/-- the difference of two normalised angles, rounded, and its complement to a full turn -/
theorem differenceR_cases (R : Rounding ℝ) (hR : Arithmetic R) (ho : ∀ x, R.rnd (-x) = -R.rnd x) {L : LibM} {pi gap e : ℝ} (hp : PiConstant R pi gap) (hL : Accurate L pi e) (r0 r : ℝ) :
    ∃ D m, D = R.rnd (angleNormR L r0 - angleNormR L r) ∧ m = R.rnd (2 * pi - |D|) ∧ |D| ≤ 2 * pi ∧ 0 ≤ m ∧
    ((|D| < m ∧ angleDifferenceR R L pi r0 r = D) ∨ (m ≤ |D| ∧ 0 < D ∧ angleDifferenceR R L pi r0 r = -m) ∨ (m ≤ |D| ∧ D ≤ 0 ∧ angleDifferenceR R L pi r0 r = m)) := by
  have hr := normR_range hL r0 r
  refine ⟨_, _, rfl, rfl, ?_, ?_, ?_⟩
  · rw [abs_le] at *
    have h1 := R.mono _ _ hr.2
    have h2 := R.mono _ _ hr.1
    rw [ho, hp.twice] at h2
    rw [hp.twice] at h1
    exact ⟨h2, h1⟩
  · have h0 : R.rnd 0 = 0 := (rnd_sign R hR 0).2.2 rfl
    rw [← h0]
    apply R.mono
    rw [abs_le] at hr
    have h1 := R.mono _ _ hr.2
    have h2 := R.mono _ _ hr.1
    rw [ho, hp.twice] at h2
    rw [hp.twice] at h1
    have : |R.rnd (angleNormR L r0 - angleNormR L r)| ≤ 2 * pi := abs_le.2 ⟨h2, h1⟩
    linarith
  · unfold angleDifferenceR
    simp only
    have hb : |R.rnd (angleNormR L r0 - angleNormR L r)| ≤ 2 * pi := by
      rw [abs_le] at *
      have h1 := R.mono _ _ hr.2
      have h2 := R.mono _ _ hr.1
      rw [ho, hp.twice] at h2
      rw [hp.twice] at h1
      exact ⟨h2, h1⟩
    rw [hp.twice]
    generalize R.rnd (angleNormR L r0 - angleNormR L r) = D at *
    have hm : 0 ≤ R.rnd (2 * pi - |D|) := by
      rw [← (rnd_sign R hR 0).2.2 rfl]
      exact R.mono _ _ (by linarith)
    have hi := hR.idem (2 * pi - |D|)
    generalize R.rnd (2 * pi - |D|) = m at *
    by_cases h0 : 0 < D
    · rw [if_pos h0, mul_neg_one, ho, hi, abs_neg, abs_of_nonneg hm]
      by_cases h : |D| < m
      · rw [if_pos h]; exact Or.inl ⟨h, rfl⟩
      · rw [if_neg h]; exact Or.inr (Or.inl ⟨not_lt.1 h, h0, rfl⟩)
    · rw [if_neg h0, mul_one, hi, abs_of_nonneg hm]
      by_cases h : |D| < m
      · rw [if_pos h]; exact Or.inl ⟨h, rfl⟩
      · rw [if_neg h]; exact Or.inr (Or.inr ⟨not_lt.1 h, not_lt.1 h0, rfl⟩)

/-- **C123** The rotation prior in floating point: at the prior itself the difference of angles is exactly 0; it is never more than `M_PI`, the largest number of the type that is at most half a turn; and swapping the angles changes its sign. -/
theorem C123_rotation (R : Rounding ℝ) (hR : Arithmetic R) (ho : ∀ x, R.rnd (-x) = -R.rnd x) {L : LibM} {pi gap e : ℝ} (hp : PiConstant R pi gap) (hL : Accurate L pi e) (r0 r : ℝ) :
    angleDifferenceR R L pi r0 r0 = 0 ∧ |angleDifferenceR R L pi r0 r| ≤ pi ∧ angleDifferenceR R L pi r r0 = -angleDifferenceR R L pi r0 r := by
  have hz : R.rnd 0 = 0 := (rnd_sign R hR 0).2.2 rfl
  refine ⟨?_, ?_, ?_⟩
  · obtain ⟨D, m, hD, hm, _, _, h⟩ := differenceR_cases R hR ho hp hL r0 r0
    rw [sub_self, hz] at hD
    subst hD
    rw [abs_zero, sub_zero, hp.twice] at hm
    have := hp.pos
    rcases h with ⟨_, h⟩ | ⟨h, _⟩ | ⟨h, _⟩
    · exact h
    · rw [abs_zero] at h; linarith
    · rw [abs_zero] at h; linarith
  · obtain ⟨D, m, hD, hm, hb, h0, h⟩ := differenceR_cases R hR ho hp hL r0 r
    have key : pi ≤ |D| → m ≤ pi := fun h => by
      rw [hm, ← hp.num]
      refine R.mono _ _ ?_
      rw [hp.num]; linarith
    have key' : |D| ≤ pi → pi ≤ m := fun h => by
      rw [hm]
      conv_lhs => rw [← hp.num]
      exact R.mono _ _ (by linarith)
    rcases h with ⟨h, e⟩ | ⟨h, _, e⟩ | ⟨h, _, e⟩ <;> rw [e]
    · by_contra hc
      push Not at hc
      linarith [key hc.le]
    · rw [abs_neg, abs_of_nonneg h0]
      rcases le_total |D| pi with g | g
      · linarith
      · exact key g
    · rw [abs_of_nonneg h0]
      rcases le_total |D| pi with g | g
      · linarith
      · exact key g
  · obtain ⟨D, m, hD, hm, _, h0, h⟩ := differenceR_cases R hR ho hp hL r0 r
    obtain ⟨D', m', hD', hm', _, h0', h'⟩ := differenceR_cases R hR ho hp hL r r0
    have eD : D' = -D := by rw [hD', hD, ← ho, neg_sub]
    have em : m' = m := by rw [hm', hm, eD, abs_neg]
    subst eD
    subst em
    rw [abs_neg] at h'
    by_cases hD0 : D = 0
    · rw [hD0, abs_zero, sub_zero, hp.twice] at hm
      have := hp.pos
      rw [hD0, abs_zero] at h h'
      rcases h with ⟨_, e⟩ | ⟨g, _, e⟩ | ⟨g, _, e⟩ <;> rcases h' with ⟨_, e'⟩ | ⟨g', _, e'⟩ | ⟨g', _, e'⟩ <;> first | (exfalso; linarith) | (rw [e, e'])
    · rcases h with ⟨_, e⟩ | ⟨g, g2, e⟩ | ⟨g, g2, e⟩ <;> rcases h' with ⟨_, e'⟩ | ⟨g', g2', e'⟩ | ⟨g', g2', e'⟩ <;>
        first
        | (rw [e, e']; done)
        | (rw [e, e', neg_neg]; done)
        | (exfalso; linarith)
        | (exfalso; exact hD0 (by linarith))

/-- **C123** For all angles, however many turns they contain: the computed difference is that of the two rotations up to full turns and a small error, and the size of the prior is that of the exact one (C44) up to a small error. -/
theorem C123_rotation_close (R : Rounding ℝ) (hR : Arithmetic R) (ho : ∀ x, R.rnd (-x) = -R.rnd x) {L : LibM} {pi gap e : ℝ} (hp : PiConstant R pi gap) (hL : Accurate L pi e) (r0 r : ℝ) :
    (∃ c, SameAngle c (r0 - r) ∧ |angleDifferenceR R L pi r0 r - c| ≤ 10 * e + 4 * R.u * pi + 2 * gap) ∧
    |(|angleDifferenceR R L pi r0 r| - |angleDifference r0 r|)| ≤ 10 * e + 4 * R.u * pi + 2 * gap := by
  have first : ∃ c, SameAngle c (r0 - r) ∧ |angleDifferenceR R L pi r0 r - c| ≤ 10 * e + 4 * R.u * pi + 2 * gap := by
    obtain ⟨ka, ⟨na, hna⟩, ha⟩ := normR_near hL r0
    obtain ⟨kb, ⟨nb, hnb⟩, hb⟩ := normR_near hL r
    obtain ⟨D, m, hD, hm, hDb, h0, h⟩ := differenceR_cases R hR ho hp hL r0 r
    have hu := R.nonneg
    have hpos := hp.pos
    have hle := hp.le
    have hnear := hp.near
    have eD := R.err (angleNormR L r0 - angleNormR L r)
    rw [← hD] at eD
    have eD' : |D - (angleNormR L r0 - angleNormR L r)| ≤ 2 * R.u * pi := by
      have := mul_le_mul_of_nonneg_left (normR_range hL r0 r) hu
      linarith
    have em := R.err (2 * pi - |D|)
    rw [← hm] at em
    have em' : |m - (2 * pi - |D|)| ≤ 2 * R.u * pi := by
      have h1 : |(2 * pi - |D|)| ≤ 2 * pi := by rw [abs_le]; constructor <;> linarith [abs_nonneg D]
      have := mul_le_mul_of_nonneg_left h1 hu
      linarith
    rw [abs_le] at ha hb eD' em'
    have hup : 0 ≤ R.u * pi := mul_nonneg hu hpos.le
    rcases h with ⟨_, e1⟩ | ⟨_, h2, e1⟩ | ⟨_, h2, e1⟩
    · refine ⟨ka - kb, ⟨na - nb, by push_cast; linarith⟩, ?_⟩
      rw [e1, abs_le]
      constructor <;> linarith [ha.1, ha.2, hb.1, hb.2, eD'.1, eD'.2]
    · refine ⟨ka - kb - 2 * π, ⟨na - nb - 1, by push_cast; linarith⟩, ?_⟩
      rw [abs_of_pos h2] at em'
      rw [e1, abs_le]
      constructor <;> linarith [ha.1, ha.2, hb.1, hb.2, eD'.1, eD'.2, em'.1, em'.2]
    · refine ⟨ka - kb + 2 * π, ⟨na - nb + 1, by push_cast; linarith⟩, ?_⟩
      rw [abs_of_nonpos h2] at em'
      rw [e1, abs_le]
      constructor <;> linarith [ha.1, ha.2, hb.1, hb.2, eD'.1, eD'.2, em'.1, em'.2]
  refine ⟨first, ?_⟩
  obtain ⟨c, hc, hd⟩ := first
  obtain ⟨g1, g2, g3, _⟩ := C44_angle_difference r0 r
  have hrange := (C123_rotation R hR ho hp hL r0 r).2.1
  have hmin := g3 c hc
  generalize angleDifferenceR R L pi r0 r = d at *
  generalize angleDifference r0 r = x at *
  generalize 10 * e + 4 * R.u * pi + 2 * gap = tol at *
  -- the exact difference, moved by the same number of turns
  obtain ⟨j, hj⟩ := g1.trans hc.symm
  have hbig : |d| ≤ |d + 2 * π * j| := by
    by_cases hj0 : j = 0
    · rw [hj0]; simp
    · have : (1 : ℝ) ≤ |(j : ℝ)| := by
        have : 1 ≤ |j| := Int.one_le_abs hj0
        exact_mod_cast this
      have t := abs_sub_abs_le_abs_sub (2 * π * j) (-d)
      rw [abs_neg, sub_neg_eq_add, abs_mul, abs_of_pos two_pi_pos, add_comm] at t
      have := hp.le
      nlinarith [pi_pos]
  have e1 : d + 2 * π * j = (d - c) + x := by linarith
  have t1 := abs_add_le (d - c) x
  rw [← e1] at t1
  have t2 := abs_sub_abs_le_abs_sub c d
  rw [abs_sub_comm c d] at t2
  rw [abs_le]
  constructor <;> linarith

/-- **C123** The residuals of the rotation priors (2D and roll, pitch, yaw): exactly 0 at the prior, at most the weight times `M_PI`, and close to the exact residuals. -/
theorem C123_residuals (R : Rounding ℝ) (hR : Arithmetic R) (ho : ∀ x, R.rnd (-x) = -R.rnd x) {L : LibM} {pi gap e : ℝ} (hp : PiConstant R pi gap) (hL : Accurate L pi e) (weight : ℝ) :
    (∀ prior, rotationResidual2R R L pi weight prior prior = 0) ∧ (∀ prior, rotationResidualRPYR R L pi weight prior prior = 0) ∧
    (∀ prior r, |rotationResidual2R R L pi weight prior r| ≤ R.rnd (|weight| * pi)) ∧
    (∀ prior r i, |rotationResidualRPYR R L pi weight prior r i| ≤ R.rnd (|weight| * pi)) ∧
    (∀ prior r, |(|rotationResidual2R R L pi weight prior r| - |rotationResidual2 weight prior r|)| ≤ |weight| * (10 * e + 5 * R.u * pi + 2 * gap)) ∧
    ∀ prior r i, |(|rotationResidualRPYR R L pi weight prior r i| - |rotationResidualRPY weight prior r i|)| ≤ |weight| * (10 * e + 5 * R.u * pi + 2 * gap) := by
  have hz : R.rnd 0 = 0 := (rnd_sign R hR 0).2.2 rfl
  have zero : ∀ a, R.rnd (weight * angleDifferenceR R L pi a a) = 0 := fun a => by
    rw [(C123_rotation R hR ho hp hL a a).1, mul_zero, hz]
  have bound : ∀ a b, |R.rnd (weight * angleDifferenceR R L pi a b)| ≤ R.rnd (|weight| * pi) := fun a b => by
    have h : |weight * angleDifferenceR R L pi a b| ≤ |weight| * pi := by
      rw [abs_mul]
      exact mul_le_mul_of_nonneg_left (C123_rotation R hR ho hp hL a b).2.1 (abs_nonneg _)
    rw [abs_le] at *
    have h1 := R.mono _ _ h.1
    rw [ho] at h1
    exact ⟨h1, R.mono _ _ h.2⟩
  have close : ∀ a b, |(|R.rnd (weight * angleDifferenceR R L pi a b)| - |weight * angleDifference a b|)| ≤ |weight| * (10 * e + 5 * R.u * pi + 2 * gap) := fun a b => by
    have h1 := (C123_rotation_close R hR ho hp hL a b).2
    have h2 := (C123_rotation R hR ho hp hL a b).2.1
    have h3 := R.err (weight * angleDifferenceR R L pi a b)
    generalize angleDifferenceR R L pi a b = d at *
    generalize angleDifference a b = x at *
    have h4 : R.u * |weight * d| ≤ |weight| * (R.u * pi) := by
      rw [abs_mul]
      have := mul_le_mul_of_nonneg_left h2 (mul_nonneg R.nonneg (abs_nonneg weight))
      linarith
    have h5 : |(|weight * d| - |weight * x|)| ≤ |weight| * (10 * e + 4 * R.u * pi + 2 * gap) := by
      rw [abs_mul, abs_mul, ← mul_sub, abs_mul, abs_abs]
      exact mul_le_mul_of_nonneg_left h1 (abs_nonneg _)
    have h6 := abs_abs_sub_abs_le_abs_sub (R.rnd (weight * d)) (weight * d)
    have h7 := abs_add_le (|R.rnd (weight * d)| - |weight * d|) (|weight * d| - |weight * x|)
    rw [sub_add_sub_cancel] at h7
    linarith
  exact ⟨zero, fun p => funext fun i => zero (p i), bound, fun p r i => bound _ _, close, fun p r i => close _ _⟩

/-- **C123** The translation prior in floating point: for a positive weight it is 0 exactly at the prior, has the sign of the deviation, never decreases when the position moves on in the same direction, and has a small relative error. -/
theorem C123_translation {d : Nat} (R : Rounding ℝ) (hR : Arithmetic R) (weight : ℝ) (hw : 0 < weight) (prior t : Fin d → ℝ) :
    (translationResidualR R weight prior t = 0 ↔ t = prior) ∧ (∀ i, 0 < translationResidualR R weight prior t i ↔ prior i < t i) ∧
    (∀ t' i, t i ≤ t' i → translationResidualR R weight prior t i ≤ translationResidualR R weight prior t' i) ∧
    ∀ i, |translationResidualR R weight prior t i - translationResidual weight prior t i| ≤ ((1 + R.u) ^ 2 - 1) * |translationResidual weight prior t i| := by
  refine ⟨⟨fun h => funext fun i => ?_, fun h => funext fun i => ?_⟩, fun i => ?_, fun t' i h => ?_, fun i => ?_⟩
  · have := congrFun h i
    have h1 := (rnd_sign R hR _).2.1 this
    rcases mul_eq_zero.1 h1 with h2 | h2
    · exact absurd h2 hw.ne'
    · linarith [(rnd_sign R hR _).2.1 h2]
  · rw [h]
    show R.rnd (weight * R.rnd (prior i - prior i)) = 0
    rw [sub_self, (rnd_sign R hR 0).2.2 rfl, mul_zero, (rnd_sign R hR 0).2.2 rfl]
  · show 0 < R.rnd (weight * R.rnd (t i - prior i)) ↔ _
    rw [(rnd_sign R hR _).1, mul_pos_iff_of_pos_left hw, (rnd_sign R hR _).1, sub_pos]
  · exact R.mono _ _ (mul_le_mul_of_nonneg_left (R.mono _ _ (by linarith)) hw.le)
  · show |R.rnd (weight * R.rnd (t i - prior i)) - weight * (t i - prior i)| ≤ ((1 + R.u) ^ 2 - 1) * |weight * (t i - prior i)|
    generalize t i - prior i = x
    have h1 := R.err x
    have h2 := R.err (weight * R.rnd x)
    have hu := R.nonneg
    have h3 : |weight * R.rnd x - weight * x| ≤ R.u * |weight * x| := by
      rw [← mul_sub, abs_mul, abs_mul]
      have := mul_le_mul_of_nonneg_left h1 (abs_nonneg weight)
      linarith
    have h4 := abs_sub_abs_le_abs_sub (weight * R.rnd x) (weight * x)
    have h5 := abs_add_le (R.rnd (weight * R.rnd x) - weight * R.rnd x) (weight * R.rnd x - weight * x)
    rw [sub_add_sub_cancel] at h5
    have h6 : R.u * |weight * R.rnd x| ≤ R.u * ((1 + R.u) * |weight * x|) := mul_le_mul_of_nonneg_left (by linarith) hu
    linarith

/-- a non-trivial case: the residual of a prior at 1 m with weight 3, in double -/
example : 0 < translationResidualR (ieee ℝ 53 (by norm_num)) 3 ![1, 2] ![3 / 2, -1] 0 ∧ translationResidualR (ieee ℝ 53 (by norm_num)) 3 ![1, 2] ![3 / 2, -1] ≠ 0 := by
  have h := C123_translation (ieee ℝ 53 (by norm_num)) (ieee_arithmetic 53 (by norm_num)) 3 (by norm_num) ![1, 2] ![3 / 2, -1]
  refine ⟨(h.2.1 0).2 (by norm_num), fun h0 => ?_⟩
  have := congrFun (h.1.1 h0) 0
  norm_num at this

/-! ### The quaternion prior -/

theorem term_err (R : Rounding ℝ) (x : ℝ) : |R.rnd x - x| ≤ ((1 + R.u) - 1) * |x| := by
  have := R.err x
  linarith

theorem add_step (R : Rounding ℝ) {x x' X y y' : ℝ} {k : ℝ} (hk : 1 + R.u ≤ k) (hx : |x' - x| ≤ (k - 1) * X) (hX : |x| ≤ X) (hy : |y' - y| ≤ ((1 + R.u) - 1) * |y|) :
    |R.rnd (x' + y') - (x + y)| ≤ (k * (1 + R.u) - 1) * (X + |y|) := by
  have hu := R.nonneg
  have h0 := R.err (x' + y')
  have hX0 := (abs_nonneg x).trans hX
  have hy0 := abs_nonneg y
  have h1 : |x' + y' - (x + y)| ≤ (k - 1) * (X + |y|) := by
    have : x' + y' - (x + y) = (x' - x) + (y' - y) := by ring
    rw [this]
    have := abs_add_le (x' - x) (y' - y)
    nlinarith
  have h2 : |x' + y'| ≤ k * (X + |y|) := by
    have t1 := abs_sub_abs_le_abs_sub (x' + y') (x + y)
    have t2 := abs_add_le x y
    linarith
  have h3 := abs_add_le (R.rnd (x' + y') - (x' + y')) (x' + y' - (x + y))
  rw [sub_add_sub_cancel] at h3
  have h4 := mul_le_mul_of_nonneg_left h2 hu
  linarith

theorem sub_step (R : Rounding ℝ) {x x' X y y' : ℝ} {k : ℝ} (hk : 1 + R.u ≤ k) (hx : |x' - x| ≤ (k - 1) * X) (hX : |x| ≤ X) (hy : |y' - y| ≤ ((1 + R.u) - 1) * |y|) :
    |R.rnd (x' - y') - (x - y)| ≤ (k * (1 + R.u) - 1) * (X + |y|) := by
  have := add_step R (y := -y) (y' := -y') hk hx hX (by rw [abs_neg, ← neg_add', abs_neg, ← sub_eq_add_neg]; exact hy)
  rwa [abs_neg, ← sub_eq_add_neg, ← sub_eq_add_neg] at this

theorem four_products {a b c d e f g h : ℝ} : |a * e| + |b * f| + |c * g| + |d * h| ≤ √(a ^ 2 + b ^ 2 + c ^ 2 + d ^ 2) * √(e ^ 2 + f ^ 2 + g ^ 2 + h ^ 2) := by
  rw [← Real.sqrt_mul (by positivity)]
  apply Real.le_sqrt_of_sq_le
  simp only [abs_mul]
  rw [← sq_abs a, ← sq_abs b, ← sq_abs c, ← sq_abs d, ← sq_abs e, ← sq_abs f, ← sq_abs g, ← sq_abs h]
  generalize |a| = a at *; generalize |b| = b at *; generalize |c| = c at *; generalize |d| = d at *
  generalize |e| = e at *; generalize |f| = f at *; generalize |g| = g at *; generalize |h| = h at *
  nlinarith [sq_nonneg (a * f - b * e), sq_nonneg (a * g - c * e), sq_nonneg (a * h - d * e), sq_nonneg (b * g - c * f), sq_nonneg (b * h - d * f), sq_nonneg (c * h - d * g)]

/-- a product of quaternions, rounded -/
theorem mulR_err (R : Rounding ℝ) (p q : Quat) :
    |(p.mulR R q).w - (p.mul q).w| ≤ ((1 + R.u) ^ 4 - 1) * (quatNorm p * quatNorm q) ∧ |(p.mulR R q).x - (p.mul q).x| ≤ ((1 + R.u) ^ 4 - 1) * (quatNorm p * quatNorm q) ∧
    |(p.mulR R q).y - (p.mul q).y| ≤ ((1 + R.u) ^ 4 - 1) * (quatNorm p * quatNorm q) ∧ |(p.mulR R q).z - (p.mul q).z| ≤ ((1 + R.u) ^ 4 - 1) * (quatNorm p * quatNorm q) := by
  have hu := R.nonneg
  have k1 : 1 + R.u ≤ 1 + R.u := le_rfl
  have k2 : 1 + R.u ≤ (1 + R.u) * (1 + R.u) := by nlinarith
  have k3 : 1 + R.u ≤ (1 + R.u) * (1 + R.u) * (1 + R.u) := by nlinarith [mul_nonneg hu hu, mul_nonneg hu (mul_nonneg hu hu)]
  have k4 : 0 ≤ (1 + R.u) ^ 4 - 1 := by nlinarith [pow_le_pow_left₀ (by norm_num : (0 : ℝ) ≤ 1) (by linarith : 1 ≤ 1 + R.u) 4]
  have last : ∀ {v E S : ℝ}, |v - E| ≤ ((1 + R.u) * (1 + R.u) * (1 + R.u) * (1 + R.u) - 1) * S → S ≤ quatNorm p * quatNorm q → |v - E| ≤ ((1 + R.u) ^ 4 - 1) * (quatNorm p * quatNorm q) := by
    intro v E S h1 h2
    have e4 : (1 + R.u) * (1 + R.u) * (1 + R.u) * (1 + R.u) = (1 + R.u) ^ 4 := by ring
    rw [e4] at h1
    exact h1.trans (mul_le_mul_of_nonneg_left h2 k4)
  have nrm : ∀ q : Quat, quatNorm q = √(q.w ^ 2 + q.x ^ 2 + q.y ^ 2 + q.z ^ 2) := fun q => rfl
  have tri : ∀ a b : ℝ, |a + b| ≤ |a| + |b| := abs_add_le
  have tri' : ∀ a b : ℝ, |a - b| ≤ |a| + |b| := abs_sub
  refine ⟨last (sub_step R k3 (sub_step R k2 (sub_step R k1 (term_err R _) le_rfl (term_err R _)) (tri' _ _) (term_err R _)) ((tri' _ _).trans (add_le_add (tri' _ _) le_rfl)) (term_err R _)) ?_,
    last (sub_step R k3 (add_step R k2 (add_step R k1 (term_err R _) le_rfl (term_err R _)) (tri _ _) (term_err R _)) ((tri _ _).trans (add_le_add (tri _ _) le_rfl)) (term_err R _)) ?_,
    last (add_step R k3 (add_step R k2 (sub_step R k1 (term_err R _) le_rfl (term_err R _)) (tri' _ _) (term_err R _)) ((tri _ _).trans (add_le_add (tri' _ _) le_rfl)) (term_err R _)) ?_,
    last (add_step R k3 (sub_step R k2 (add_step R k1 (term_err R _) le_rfl (term_err R _)) (tri _ _) (term_err R _)) ((tri' _ _).trans (add_le_add (tri _ _) le_rfl)) (term_err R _)) ?_⟩ <;> rw [nrm, nrm]
  · exact four_products
  · refine four_products.trans_eq ?_
    congr 2; ring
  · refine four_products.trans_eq ?_
    congr 2; ring
  · refine four_products.trans_eq ?_
    congr 2; ring

/-- **C123** The quaternion prior in floating point: every residual is within `((1 + u)^5 - 1)` times the weight and the lengths of the two quaternions of the exact one (C46). -/
theorem C123_quaternion (R : Rounding ℝ) (weight : ℝ) (prior q : Quat) (i : Fin 4) :
    |rotationResidualQuatR R weight prior q i - rotationResidualQuat weight prior q i| ≤ |weight| * (((1 + R.u) ^ 5 - 1) * (quatNorm prior * quatNorm q)) := by
  have hu := R.nonneg
  have hn : quatNorm prior.inv = quatNorm prior := by
    unfold quatNorm quatNormSq Quat.inv
    simp
  obtain ⟨hw, hx, hy, hz⟩ := mulR_err R prior.inv q
  rw [hn] at hw hx hy hz
  have hN : 0 ≤ quatNorm prior * quatNorm q := mul_nonneg (sqrt_nonneg _) (sqrt_nonneg _)
  have hmul : quatNorm (prior.inv.mul q) = quatNorm prior * quatNorm q := by
    unfold quatNorm
    rw [← Real.sqrt_mul (by unfold quatNormSq; positivity)]
    congr 1
    unfold quatNormSq Quat.inv Quat.mul
    ring
  have comp : |(prior.inv.mul q).w| ≤ quatNorm prior * quatNorm q ∧ |(prior.inv.mul q).x| ≤ quatNorm prior * quatNorm q ∧ |(prior.inv.mul q).y| ≤ quatNorm prior * quatNorm q ∧ |(prior.inv.mul q).z| ≤ quatNorm prior * quatNorm q := by
    rw [← hmul]
    generalize prior.inv.mul q = m
    refine ⟨?_, ?_, ?_, ?_⟩ <;> (apply Real.abs_le_sqrt; unfold quatNormSq; nlinarith [sq_nonneg m.w, sq_nonneg m.x, sq_nonneg m.y, sq_nonneg m.z])
  have step : ∀ v E : ℝ, |v - E| ≤ ((1 + R.u) ^ 4 - 1) * (quatNorm prior * quatNorm q) → |E| ≤ quatNorm prior * quatNorm q →
      |R.rnd (weight * v) - weight * E| ≤ |weight| * (((1 + R.u) ^ 5 - 1) * (quatNorm prior * quatNorm q)) := by
    intro v E h1 h2
    generalize quatNorm prior * quatNorm q = N at *
    have h3 := R.err (weight * v)
    have h4 : |v| ≤ (1 + R.u) ^ 4 * N := by linarith [abs_sub_abs_le_abs_sub v E]
    have h5 : R.u * |weight * v| ≤ |weight| * (R.u * ((1 + R.u) ^ 4 * N)) := by
      rw [abs_mul]
      have := mul_le_mul_of_nonneg_left h4 (mul_nonneg hu (abs_nonneg weight))
      linarith
    have h6 : |weight * v - weight * E| ≤ |weight| * (((1 + R.u) ^ 4 - 1) * N) := by
      rw [← mul_sub, abs_mul]
      exact mul_le_mul_of_nonneg_left h1 (abs_nonneg _)
    have h7 := abs_add_le (R.rnd (weight * v) - weight * v) (weight * v - weight * E)
    rw [sub_add_sub_cancel] at h7
    have e5 : |weight| * (((1 + R.u) ^ 5 - 1) * N) = |weight| * (R.u * ((1 + R.u) ^ 4 * N)) + |weight| * (((1 + R.u) ^ 4 - 1) * N) := by ring
    linarith
  fin_cases i
  · exact step _ _ hw comp.1
  · exact step _ _ hx comp.2.1
  · exact step _ _ hy comp.2.2.1
  · exact step _ _ hz comp.2.2.2

/-! ### Numbers of type double -/

/-- the value of `M_PI` in double -/
noncomputable def Spec.mPi : ℝ := 884279719003555 / 2 ^ 48

theorem mPi_bits : toBits 53 mPi = mPi := by
  refine toBits_of_hasBits 53 (by norm_num) ⟨884279719003555, -48, ?_, ?_⟩
  · norm_num
  · unfold mPi; norm_num [zpow_neg]

theorem mPi_constant : PiConstant (ieee ℝ 53 (by norm_num)) mPi (1 / 2 ^ 52) where
  num := mPi_bits
  twice := by
    show toBits 53 (2 * mPi) = 2 * mPi
    have := toBits_scale 53 mPi 1
    rw [mPi_bits, zpow_one, mul_comm] at this
    exact this
  pos := by unfold mPi; positivity
  le := by
    have := pi_gt_d20
    unfold mPi
    norm_num at this ⊢
    linarith
  near := by
    have := pi_lt_d20
    unfold mPi
    norm_num at this ⊢
    linarith

/-- functions rounded correctly, as an example of a library -/
noncomputable def roundedLibM : LibM where
  sin x := toBits 53 (Real.sin x)
  cos x := toBits 53 (Real.cos x)
  atan2 y x := restrict mPi (toBits 53 (atan2 y x))

/-- the hypotheses are met by correctly rounded functions of type double -/
theorem roundedLibM_accurate : Accurate roundedLibM mPi (1 / 2 ^ 50) := by
  have err : ∀ x : ℝ, |toBits 53 x - x| ≤ (2 ^ 53)⁻¹ * |x| := (ieee ℝ 53 (by norm_num)).err
  have one : ∀ x : ℝ, |x| ≤ 1 → |toBits 53 x - x| ≤ 1 / 2 ^ 50 := fun x h => by
    have := mul_le_mul_of_nonneg_left h (by positivity : (0 : ℝ) ≤ (2 ^ 53)⁻¹)
    have := err x
    norm_num at *
    linarith
  refine ⟨fun x => one _ (abs_sin_le_one x), fun x => one _ (abs_cos_le_one x), fun y x => ?_, fun y x => restrict_abs mPi_constant.pos.le _, by norm_num⟩
  show |restrict mPi (toBits 53 (atan2 y x)) - atan2 y x| ≤ _
  have ha : |atan2 y x| ≤ π := Complex.abs_arg_le_pi _
  generalize atan2 y x = a at *
  have h1 := restrict_lipschitz mPi (toBits 53 a) a
  have h2 := err a
  have h3 : |restrict mPi a - a| ≤ 1 / 2 ^ 52 := by
    have := mPi_constant.near
    have := mPi_constant.pos
    rw [abs_le] at ha
    unfold restrict
    rcases le_total a (-mPi) with h | h
    · rw [min_eq_right (by linarith), max_eq_left h, abs_le]
      constructor <;> linarith [ha.1, (by positivity : (0 : ℝ) ≤ 1 / 2 ^ 52)]
    · rcases le_total a mPi with h' | h'
      · rw [min_eq_right h', max_eq_right h, sub_self, abs_zero]; positivity
      · rw [min_eq_left h', max_eq_right (by linarith), abs_le]
        constructor <;> linarith [ha.2, (by positivity : (0 : ℝ) ≤ 1 / 2 ^ 52)]
  have h4 := abs_add_le (restrict mPi (toBits 53 a) - restrict mPi a) (restrict mPi a - a)
  rw [sub_add_sub_cancel] at h4
  have h5 := mul_le_mul_of_nonneg_left (ha.trans pi_lt_d2.le) (by positivity : (0 : ℝ) ≤ (2 ^ 53)⁻¹)
  norm_num at *
  linarith

/-- **C123** (an instance). With numbers of type double and library functions that are accurate up to `2^-50`: for all angles, the size of the difference of two rotations is off by less than `2 · 10^-14`, and never above `M_PI`. -/
theorem C123_double (L : LibM) (hL : Accurate L mPi (1 / 2 ^ 50)) (r0 r : ℝ) :
    |(|angleDifferenceR (ieee ℝ 53 (by norm_num)) L mPi r0 r| - |angleDifference r0 r|)| < 2 / 10 ^ 14 ∧ |angleDifferenceR (ieee ℝ 53 (by norm_num)) L mPi r0 r| ≤ mPi := by
  have hR := ieee_arithmetic 53 (by norm_num)
  have ho : ∀ x, (ieee ℝ 53 (by norm_num)).rnd (-x) = -(ieee ℝ 53 (by norm_num)).rnd x := toBits_neg 53
  refine ⟨lt_of_le_of_lt (C123_rotation_close _ hR ho mPi_constant hL r0 r).2 ?_, (C123_rotation _ hR ho mPi_constant hL r0 r).2.1⟩
  have hu : (ieee ℝ 53 (by norm_num)).u = ((2 : ℝ) ^ 53)⁻¹ := rfl
  rw [hu]
  have h := mPi_constant.le
  have := pi_lt_d2
  norm_num at *
  linarith

/-- a non-trivial case: the library of correctly rounded functions, angles on both sides of half a turn; the difference is about 0.28, not 6 -/
example : |angleDifferenceR (ieee ℝ 53 (by norm_num)) roundedLibM mPi 3 (-3)| < 1 / 3 := by
  have h := (C123_double roundedLibM roundedLibM_accurate 3 (-3)).1
  have h2 := (C44_angle_difference 3 (-3)).2.2.1 (6 - 2 * π) ⟨-1, by push_cast; ring⟩
  have := pi_gt_d2
  have := pi_lt_d2
  have h3 : |6 - 2 * π| < 31 / 100 := by rw [abs_lt]; constructor <;> linarith
  rw [abs_lt] at h
  norm_num at h h3 ⊢
  linarith [h.2]

end Ndt
