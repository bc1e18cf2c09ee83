import Verif.Proofs.Jet
import Verif.Props.MatchingMore

/-!
C102: the derivatives that ceres gets by automatic differentiation are the derivatives of the residuals.
-/

namespace Ndt

open Real Matching Spec Filter Topology

variable {n : Nat}

/-- The residual `r` is a function of `n` parameters; `none` is an access outside of the map's storage. The `Jet` computed at the parameters `x` has its value, and if the residual is differentiable at `x` then the derivative parts
of the `Jet` are the partial derivatives. -/
structure Spec.Differentiated (r : (Fin n → ℝ) → Option (Fl ℝ)) (x : Fin n → ℝ) (j : Jet n) : Prop where
  value : r x = some (.fin j.a)
  derivative : ∀ (F : (Fin n → ℝ) → ℝ) (L : (Fin n → ℝ) →L[ℝ] ℝ), (∀ᶠ y in 𝓝 x, r y = some (.fin (F y))) → HasFDerivAt F L x → L = lin j.v

/-- The residual is a differentiable function near `x`, and the derivative parts of the `Jet` are its partial derivatives. -/
def Spec.Smooth (r : (Fin n → ℝ) → Option (Fl ℝ)) (x : Fin n → ℝ) (j : Jet n) : Prop :=
  ∃ F : (Fin n → ℝ) → ℝ, (∀ᶠ y in 𝓝 x, r y = some (.fin (F y))) ∧ HasFDerivAt F (lin j.v) x

theorem Tracks.differentiated {x : Fin n → ℝ} {F : (Fin n → ℝ) → ℝ} {j : Jet n} (h : Tracks x F j) : Differentiated (fun y => some (.fin (F y))) x j ∧ Smooth (fun y => some (.fin (F y))) x j := by
  refine ⟨⟨by rw [h.1], ?_⟩, F, Eventually.of_forall fun y => rfl, h.2⟩
  intro F' L hF hL
  have e : F =ᶠ[𝓝 x] F' := by
    filter_upwards [hF] with y hy
    exact Fl.fin.inj (Option.some.inj hy)
  exact (hL.congr_of_eventuallyEq e).unique h.2

theorem scanResidual_fin (weight v : ℝ) : scanResidual weight (.fin v) = .fin (weight * v) := by
  unfold scanResidual
  have e : Fl.eq (.fin v) (-.fin v) = decide (v = -v) := rfl
  by_cases h : v = -v
  · have h0 : v = 0 := by linarith
    rw [e, if_pos (by simpa using h), h0]
    show Fl.fin (weight * 0) = _
    rfl
  · rw [e, if_neg (by simpa using h)]
    rfl

/-! ### the map term, in general -/

section general
variable {d : Nat}

theorem scan_differentiated {f : (Fin n → ℝ) → Option ℝ} {P : (Fin n → ℝ) → Fin d → ℝ} {x e : Fin n → ℝ} {pj : Fin d → Jet n} {ρ : ℝ} (hρ : 0 < ρ) (hP : ∀ a, Tracks x (fun y => P y a) (pj a))
    (he : ∀ (s : ℝ) a, P (x + s • e) a = P x a + s) {G : (Fin n → ℝ) → ℝ} {j : Jet n} (hG : Tracks x G j) (hf : ∀ y, (∀ a, ⌊P y a * ρ⌋ = ⌊P x a * ρ⌋) → f y = some (G y)) (hnn : ∀ y v, f y = some v → 0 ≤ v)
    (weight : ℝ) :
    Differentiated (fun y => (f y).map fun v => scanResidual weight (.fin v)) x (scanResidualJ weight j) ∧
      ((∀ a, ∀ k : ℤ, P x a * ρ ≠ k) → Smooth (fun y => (f y).map fun v => scanResidual weight (.fin v)) x (scanResidualJ weight j)) := by
  have hfx := hf x fun _ => rfl
  have ha : (scanResidualJ weight j).a = weight * j.a := by
    unfold scanResidualJ Jet.scale
    split_ifs with h
    · have : j.a = 0 := by linarith
      simp [Jet.const, this]
    · rfl
  -- a zero value is an extremum
  have key : ∀ F L, (∀ᶠ y in 𝓝 x, (f y).map (fun v => scanResidual weight (.fin v)) = some (.fin (F y))) → HasFDerivAt F L x → L = weight • lin j.v → L = lin (scanResidualJ weight j).v := by
    intro F L hF hL e
    unfold scanResidualJ
    split_ifs with h
    · have h0 : j.a = 0 := by linarith
      have hz : lin ((Jet.const 0 : Jet n).scale weight).v = 0 := by
        show lin (weight • (0 : Fin n → ℝ)) = 0
        rw [smul_zero, lin_zero]
      rw [hz]
      have hFx : F x = 0 := by
        have := hF.self_of_nhds
        rw [hfx, Option.map_some, scanResidual_fin, ← hG.1, h0, mul_zero] at this
        exact (Fl.fin.inj (Option.some.inj this)).symm
      have hval : ∀ᶠ y in 𝓝 x, ∃ v, 0 ≤ v ∧ F y = weight * v := by
        filter_upwards [hF] with y hy
        cases hv : f y with
        | none => rw [hv] at hy; simp at hy
        | some v =>
          rw [hv, Option.map_some, scanResidual_fin] at hy
          exact ⟨v, hnn y v hv, (Fl.fin.inj (Option.some.inj hy)).symm⟩
      rcases le_total 0 weight with hw | hw
      · refine IsLocalMin.hasFDerivAt_eq_zero (f := F) (a := x) ?_ hL
        filter_upwards [hval] with y hy
        obtain ⟨v, hv, e⟩ := hy
        rw [hFx, e]
        exact mul_nonneg hw hv
      · refine IsLocalMax.hasFDerivAt_eq_zero (f := F) (a := x) ?_ hL
        filter_upwards [hval] with y hy
        obtain ⟨v, hv, e⟩ := hy
        rw [hFx, e]
        exact mul_nonpos_of_nonpos_of_nonneg hw hv
    · rw [e]
      exact (lin_smul weight j.v).symm
  refine ⟨⟨?_, ?_⟩, ?_⟩
  · rw [ha, hfx, Option.map_some, scanResidual_fin, hG.1]
  · intro F L hF hL
    refine key F L hF hL ?_
    have hK : ∀ a, lin (pj a).v e = 1 := by
      intro a
      have h0 : HasFDerivAt (fun y => P y a) (lin (pj a).v) (x + (0 : ℝ) • e) := by simpa using (hP a).2
      have hl : HasDerivAt (fun s : ℝ => x + s • e) e 0 := by
        simpa using ((hasDerivAt_id (0 : ℝ)).smul_const e).const_add x
      have h1 : HasDerivAt (fun s : ℝ => P (x + s • e) a) (lin (pj a).v e) 0 := HasFDerivAt.comp_hasDerivAt (l := fun y => P y a) 0 h0 hl
      have h2 : HasDerivAt (fun s : ℝ => P (x + s • e) a) 1 0 := by
        have : (fun s : ℝ => P (x + s • e) a) = fun s => P x a + s := funext fun s => he s a
        rw [this]
        exact (hasDerivAt_id (0 : ℝ)).const_add _
      exact h1.unique h2
    have hFx : ∀ y, f y = some (G y) → (f y).map (fun v => scanResidual weight (.fin v)) = some (.fin (F y)) → F y = weight * G y := by
      intro y h1 h2
      rw [h1, Option.map_some, scanResidual_fin] at h2
      exact (Fl.fin.inj (Option.some.inj h2)).symm
    refine fderiv_eq_of_cone (S := {y | ∀ a, ⌊P y a * ρ⌋ = ⌊P x a * ρ⌋}) (e := e) hL (hG.2.const_mul weight) (hFx x hfx hF.self_of_nhds) ?_ (floor_cone (fun a => (hP a).2) hK hρ)
    filter_upwards [hF] with y hy hS
    exact hFx y (hf y hS) hy
  · intro hb
    have hev : ∀ᶠ y in 𝓝 x, (f y).map (fun v => scanResidual weight (.fin v)) = some (.fin (weight * G y)) := by
      filter_upwards [floor_eventually (fun a => (hP a).2.continuousAt) hb] with y hy
      rw [hf y hy, Option.map_some, scanResidual_fin]
    refine ⟨fun y => weight * G y, hev, ?_⟩
    rw [← key _ _ hev (hG.2.const_mul weight) rfl]
    exact hG.2.const_mul weight

theorem bell_tracks {P : (Fin n → ℝ) → Fin d → ℝ} {x : Fin n → ℝ} {pj : Fin d → Jet n} (hP : ∀ a, Tracks x (fun y => P y a) (pj a)) (mean : Fin d → ℝ) (inf : Fin d → Fin d → ℝ) :
    Tracks x (fun y => bellOf mean inf (P y)) (bellJ mean inf pj) := by
  unfold bellJ
  have hd : ∀ i, Tracks x (fun y => P y i - mean i) (pj i - .const (mean i)) := fun i => (hP i).sub (Tracks.const _)
  refine (Tracks.exp (Tracks.sum fun k => (Tracks.sum fun i => ((hd i).scale (-(1 / 2))).scale (inf i k)).mul (hd k))).congr fun y => ?_
  unfold bellOf
  congr 1
  rw [Finset.mul_sum]
  simp_rw [Finset.mul_sum, Finset.sum_mul]
  rw [Finset.sum_comm]
  refine Finset.sum_congr rfl fun k _ => Finset.sum_congr rfl fun i _ => ?_
  ring

theorem bellOf_pos (mean : Fin d → ℝ) (inf : Fin d → Fin d → ℝ) (p : Pt ℝ d) : 0 < bellOf mean inf p := Real.exp_pos _

/-- a matrix without negative directions -/
def Spec.Nonnegative (m : Fin d → Fin d → ℝ) : Prop := ∀ u : Fin d → ℝ, 0 ≤ ∑ i, ∑ k, u i * m i k * u k

theorem bellOf_le {inf : Fin d → Fin d → ℝ} (h : Nonnegative inf) (mean : Fin d → ℝ) (p : Pt ℝ d) : bellOf mean inf p ≤ 1 := by
  unfold bellOf
  rw [Real.exp_le_one_iff]
  have := h fun i => p i - mean i
  nlinarith

theorem toMap_tracks {A : (Fin n → ℝ) → Fin d → ℝ} {x : Fin n → ℝ} {q : Fin d → Jet n} (hA : ∀ a, Tracks x (fun y => A y a) (q a)) (rot : Fin d → Fin d → ℝ) (trans : Fin d → ℝ) (a : Fin d) :
    Tracks x (fun y => ∑ k, rot a k * A y k + trans a) (toMapJ rot trans q a) :=
  (Tracks.sum fun k => (hA k).scale (rot a k)).add (Tracks.const _)

variable {B : Backend d} {D : Type}

theorem jetLoop_tracks {P : (Fin n → ℝ) → Fin d → ℝ} {x : Fin n → ℝ} {pj : Fin d → Jet n} (hP : ∀ a, Tracks x (fun y => P y a) (pj a)) (valid : D → Bool) (mean : D → Fin d → ℝ) (inf : D → Fin d → Fin d → ℝ) (b : Bundle)
    (st : St B D) : ∀ (l : List Nat) (V : (Fin n → ℝ) → ℝ) (J : Jet n), Tracks x V J →
      Tracks x (fun y => l.foldl (fun value i => match b.data i with
        | none => value
        | some a => if valid (st.heap a) then value - divCount ℝ d * bellOf (mean (st.heap a)) (inf (st.heap a)) (P y) else value) (V y)) (jetLoopJ valid mean inf pj b st l J)
  | [], V, J, h => h
  | i :: l, V, J, h => by
    simp only [List.foldl_cons]
    unfold jetLoopJ
    cases hb : b.data i with
    | none => exact jetLoop_tracks hP valid mean inf b st l V J h
    | some a =>
      simp only
      by_cases hv : valid (st.heap a) = true
      · simp only [if_pos hv]
        exact jetLoop_tracks hP valid mean inf b st l _ _ (h.sub ((bell_tracks hP _ _).scale _))
      · simp only [if_neg hv]
        exact jetLoop_tracks hP valid mean inf b st l V J h

theorem divCount_mul (d : Nat) : (twoPow d : ℝ) * divCount ℝ d = 1 := by
  unfold divCount
  have : (twoPow d : ℝ) ≠ 0 := by
    have h : 0 < twoPow d := by rw [twoPow_eq]; positivity
    exact_mod_cast h.ne'
  field_simp

theorem foldl_bound {α : Type} (step : ℝ → α → ℝ) (c : ℝ) (h : ∀ v a, v - c ≤ step v a) : ∀ (l : List α) (v : ℝ), v - l.length * c ≤ l.foldl step v
  | [], v => by simp
  | a :: l, v => by
    have h1 := foldl_bound step c h l (step v a)
    have h2 := h v a
    simp only [List.foldl_cons, List.length_cons, Nat.cast_add, Nat.cast_one]
    nlinarith

theorem divCount_pos (d : Nat) : 0 < divCount ℝ d := by
  have := divCount_mul d
  by_contra h
  have h2 : (0 : ℝ) ≤ (twoPow d : ℝ) := Nat.cast_nonneg _
  nlinarith [mul_nonneg h2 (sub_nonneg.2 (not_lt.1 h))]

theorem evaluateJet_nonneg (g : Geo ℝ d) (dyn : Bool) (valid : D → Bool) (mean : D → Fin d → ℝ) (inf : D → Fin d → Fin d → ℝ) (hinf : ∀ s, valid s = true → Nonnegative (inf s)) (st : St B D) (q : Pt ℝ d) (v : ℝ)
    (h : evaluateJet g dyn valid (fun s => bellOf (mean s) (inf s)) st q = some v) : 0 ≤ v := by
  unfold evaluateJet at h
  simp only at h
  split at h
  · simp at h
  · have := Option.some.inj h
    linarith
  · have e := Option.some.inj h
    rw [← e]
    unfold jetLoop
    have := foldl_bound (fun value i => match (‹Bundle›).data i with
        | none => value
        | some a => if valid (st.heap a) then value - divCount ℝ d * bellOf (mean (st.heap a)) (inf (st.heap a)) (g.toMap q) else value) (divCount ℝ d) (by
      intro v i
      have h0 := divCount_pos d
      split
      · linarith
      · split_ifs with hv
        · have := bellOf_le (hinf _ hv) (mean (st.heap ‹Nat›)) (g.toMap q)
          nlinarith
        · linarith) (List.range (twoPow d)) 1
    rw [List.length_range, divCount_mul, sub_self] at this
    exact this

/-- The map term of a residual block with automatic differentiation and without (C62: both have the same value). `moved` is the transformation of the scan point with the parameters, `movedJ` the same on `Jet`s. -/
theorem scan_gridmap (g : Geo ℝ d) (hr : 0 < g.r) (rot : Fin d → Fin d → ℝ) (trans : Fin d → ℝ) (hmap : ∀ q a, g.toMap q a = ∑ k, rot a k * q k + trans a) (hrot : ∀ w : Fin d → ℝ, ∃ u : Fin d → ℝ, ∀ a, ∑ k, rot a k * u k = w a)
    (dyn : Bool) (valid : D → Bool) (mean : D → Fin d → ℝ) (inf : D → Fin d → Fin d → ℝ) (hinf : ∀ s, valid s = true → Nonnegative (inf s)) (dens : D → Pt ℝ d → ℝ)
    (hd : ∀ s p, dens s p = if valid s then bellOf (mean s) (inf s) p else 0) (st : St B D) (weight : ℝ) {A : (Fin n → ℝ) → Fin d → ℝ} {x : Fin n → ℝ} {q : Fin d → Jet n} (hA : ∀ a, Tracks x (fun y => A y a) (q a))
    (htr : ∀ w : Fin d → ℝ, ∃ e : Fin n → ℝ, ∀ (s : ℝ) a, A (x + s • e) a = A x a + s * w a) :
    (evaluateDouble g dyn dens st (A x) = none ∧ evaluateJ g.r rot trans dyn valid mean inf st q = none) ∨
      ∃ j, evaluateJ g.r rot trans dyn valid mean inf st q = some j ∧
        Differentiated (fun y => (evaluateDouble g dyn dens st (A y)).map fun v => scanResidual weight (.fin v)) x (scanResidualJ weight j) ∧
        ((∀ a, ∀ k : ℤ, g.toMap (A x) a ≠ k * bundleResolution g.r) → Smooth (fun y => (evaluateDouble g dyn dens st (A y)).map fun v => scanResidual weight (.fin v)) x (scanResidualJ weight j)) := by
  have hbr : 0 < bundleResolution g.r := by
    unfold bundleResolution
    linarith
  have hρ : 0 < 1 / bundleResolution g.r := by positivity
  have hP : ∀ a, Tracks x (fun y => g.toMap (A y) a) (toMapJ rot trans q a) := fun a => (toMap_tracks hA rot trans a).congr fun y => hmap _ _
  obtain ⟨u, hu⟩ := hrot fun _ => 1
  obtain ⟨e, he⟩ := htr u
  have he' : ∀ (s : ℝ) a, g.toMap (A (x + s • e)) a = g.toMap (A x) a + s := by
    intro s a
    rw [hmap, hmap]
    simp only [he, mul_add, Finset.sum_add_distrib]
    have : ∑ k, rot a k * (s * u k) = s := by
      have := congrArg (fun t => s * t) (hu a)
      simp only [Finset.mul_sum, mul_one] at this
      refine Eq.trans (Finset.sum_congr rfl fun k _ => ?_) this
      ring
    rw [this]
    ring
  have hidx : jetIndex g.r (toMapJ rot trans q) = fun a => ⌊g.toMap (A x) a * (1 / bundleResolution g.r)⌋ := by
    funext a
    show ⌊(toMapJ rot trans q a).a * _⌋ = _
    rw [(hP a).1]
  have hev : ∀ y, evaluateDouble g dyn dens st (A y) = evaluateJet g dyn valid (fun s => bellOf (mean s) (inf s)) st (A y) := fun y => (C62_gridmap g dyn valid _ dens hd st (A y)).symm
  have hsame : ∀ y, (∀ a, ⌊g.toMap (A y) a * (1 / bundleResolution g.r)⌋ = ⌊g.toMap (A x) a * (1 / bundleResolution g.r)⌋) →
      (fun a => ⌊g.toMap (A y) a * (1 / bundleResolution g.r)⌋) = jetIndex g.r (toMapJ rot trans q) := fun y hy => by rw [hidx]; exact funext hy
  have hnn : ∀ y v, evaluateDouble g dyn dens st (A y) = some v → 0 ≤ v := fun y v h => evaluateJet_nonneg g dyn valid mean inf hinf st (A y) v (by rw [← hev]; exact h)
  have hbd : (∀ a, ∀ k : ℤ, g.toMap (A x) a ≠ k * bundleResolution g.r) → ∀ a, ∀ k : ℤ, g.toMap (A x) a * (1 / bundleResolution g.r) ≠ k := by
    intro h a k e
    refine h a k ?_
    rw [← e]
    field_simp
  unfold evaluateJ
  simp only
  cases hb : st.getBundle dyn (jetIndex g.r (toMapJ rot trans q)) with
  | none =>
    left
    refine ⟨?_, rfl⟩
    rw [hev]
    unfold evaluateJet
    simp only [hsame x fun _ => rfl, hb]
  | some b =>
    right
    cases b with
    | none =>
      refine ⟨_, rfl, ?_⟩
      have := scan_differentiated hρ hP he' (Tracks.const (x := x) 1) (f := fun y => evaluateDouble g dyn dens st (A y)) (fun y hy => by
        simp only [hev]
        unfold evaluateJet
        simp only [hsame y hy, hb]) hnn weight
      exact ⟨this.1, fun h => this.2 (hbd h)⟩
    | some b =>
      refine ⟨_, rfl, ?_⟩
      have := scan_differentiated hρ hP he' (jetLoop_tracks hP valid mean inf b st (List.range (twoPow d)) _ _ (Tracks.const (x := x) 1)) (f := fun y => evaluateDouble g dyn dens st (A y)) (fun y hy => by
        simp only [hev]
        unfold evaluateJet
        simp only [hsame y hy, hb]
        rfl) hnn weight
      exact ⟨this.1, fun h => this.2 (hbd h)⟩

variable {W E M : Type}

/-- the value of an evaluation that does not throw -/
def Spec.okValue : Except String (Option ℝ) → Option ℝ
  | .ok v => v
  | .error _ => none

theorem occJetLoop_tracks {P : (Fin n → ℝ) → Fin d → ℝ} {x : Fin n → ℝ} {pj : Fin d → Jet n} (hP : ∀ a, Tracks x (fun y => P y a) (pj a)) (valid : Multiset E → Bool) (mean : Multiset E → Fin d → ℝ)
    (inf : Multiset E → Fin d → Fin d → ℝ) (occ : M → Occ W E → ℝ) (m : M) (b : Bundle) (st : St B (Occ W E)) : ∀ (l : List Nat) (V : (Fin n → ℝ) → ℝ) (J : Jet n), Tracks x V J →
      ∃ G, Tracks x G (occJetLoopJ valid mean inf (occ m) pj b st l J) ∧ ∀ y, occJetLoop valid (fun s => bellOf (mean s) (inf s)) occ (some m) (P y) b st l (V y) = .ok (G y)
  | [], V, J, h => ⟨V, h, fun y => rfl⟩
  | i :: l, V, J, h => by
    unfold occJetLoopJ occJetLoop
    cases hb : b.data i with
    | none => exact occJetLoop_tracks hP valid mean inf occ m b st l V J h
    | some a =>
      simp only
      cases hs : (st.heap a).data with
      | none => exact occJetLoop_tracks hP valid mean inf occ m b st l V J h
      | some s =>
        simp only
        by_cases hv : valid s = true
        · simp only [if_pos hv]
          refine occJetLoop_tracks hP valid mean inf occ m b st l (fun y => V y - divCount ℝ d * bellOf (mean s) (inf s) (P y) * occ m (st.heap a)) _ (h.sub ?_)
          exact (((bell_tracks hP _ _).scale _).scale _).congr fun y => by ring
        · simp only [if_neg hv]
          exact occJetLoop_tracks hP valid mean inf occ m b st l V J h

theorem occJetLoop_bound (valid : Multiset E → Bool) (mean : Multiset E → Fin d → ℝ) (inf : Multiset E → Fin d → Fin d → ℝ) (hinf : ∀ s, valid s = true → Nonnegative (inf s)) (occ : M → Occ W E → ℝ) (m : M) (hocc : ∀ o, occ m o ≤ 1)
    (p : Pt ℝ d) (b : Bundle) (st : St B (Occ W E)) : ∀ (l : List Nat) (v w : ℝ), occJetLoop valid (fun s => bellOf (mean s) (inf s)) occ (some m) p b st l v = .ok w → v - l.length * divCount ℝ d ≤ w
  | [], v, w, h => by
    have : v = w := Except.ok.inj h
    simp [this]
  | i :: l, v, w, h => by
    have h0 := divCount_pos d
    rw [List.length_cons, Nat.cast_add, Nat.cast_one]
    unfold occJetLoop at h
    cases hb : b.data i with
    | none =>
      rw [hb] at h
      have := occJetLoop_bound valid mean inf hinf occ m hocc p b st l v w h
      linarith
    | some a =>
      rw [hb] at h
      simp only at h
      cases hs : (st.heap a).data with
      | none =>
        rw [hs] at h
        have := occJetLoop_bound valid mean inf hinf occ m hocc p b st l v w h
        linarith
      | some s =>
        rw [hs] at h
        simp only at h
        have := occJetLoop_bound valid mean inf hinf occ m hocc p b st l _ w h
        split_ifs at this with hv
        · have h1 := bellOf_le (hinf _ hv) (mean s) p
          have h2 := bellOf_pos (mean s) (inf s) p
          have h3 := hocc (st.heap a)
          have h4 : bellOf (mean s) (inf s) p * occ m (st.heap a) ≤ 1 := by nlinarith
          have h5 : divCount ℝ d * (bellOf (mean s) (inf s) p * occ m (st.heap a)) ≤ divCount ℝ d * 1 := mul_le_mul_of_nonneg_left h4 h0.le
          linarith
        · linarith

/-- the same on (weighted) occupancy maps with an inverse sensor model -/
theorem scan_occupancy (g : Geo ℝ d) (hr : 0 < g.r) (rot : Fin d → Fin d → ℝ) (trans : Fin d → ℝ) (hmap : ∀ q a, g.toMap q a = ∑ k, rot a k * q k + trans a) (hrot : ∀ w : Fin d → ℝ, ∃ u : Fin d → ℝ, ∀ a, ∑ k, rot a k * u k = w a)
    (dyn : Bool) (valid : Multiset E → Bool) (mean : Multiset E → Fin d → ℝ) (inf : Multiset E → Fin d → Fin d → ℝ) (hinf : ∀ s, valid s = true → Nonnegative (inf s)) (dens : Multiset E → Pt ℝ d → ℝ)
    (hd : ∀ s p, dens s p = if valid s then bellOf (mean s) (inf s) p else 0) (occ : M → Occ W E → ℝ) (m : M) (hocc : ∀ o, occ m o ≤ 1) (st : St B (Occ W E)) (weight : ℝ) {A : (Fin n → ℝ) → Fin d → ℝ} {x : Fin n → ℝ}
    {q : Fin d → Jet n} (hA : ∀ a, Tracks x (fun y => A y a) (q a)) (htr : ∀ w : Fin d → ℝ, ∃ e : Fin n → ℝ, ∀ (s : ℝ) a, A (x + s • e) a = A x a + s * w a) :
    (occEvaluateDouble g dyn dens occ (some m) st (A x) = .ok none ∧ occEvaluateJ g.r rot trans dyn valid mean inf (occ m) st q = none) ∨
      ∃ j, occEvaluateJ g.r rot trans dyn valid mean inf (occ m) st q = some j ∧
        Differentiated (fun y => (okValue (occEvaluateDouble g dyn dens occ (some m) st (A y))).map fun v => scanResidual weight (.fin v)) x (scanResidualJ weight j) ∧
        ((∀ a, ∀ k : ℤ, g.toMap (A x) a ≠ k * bundleResolution g.r) →
          Smooth (fun y => (okValue (occEvaluateDouble g dyn dens occ (some m) st (A y))).map fun v => scanResidual weight (.fin v)) x (scanResidualJ weight j)) := by
  have hbr : 0 < bundleResolution g.r := by
    unfold bundleResolution
    linarith
  have hρ : 0 < 1 / bundleResolution g.r := by positivity
  have hP : ∀ a, Tracks x (fun y => g.toMap (A y) a) (toMapJ rot trans q a) := fun a => (toMap_tracks hA rot trans a).congr fun y => hmap _ _
  obtain ⟨u, hu⟩ := hrot fun _ => 1
  obtain ⟨e, he⟩ := htr u
  have he' : ∀ (s : ℝ) a, g.toMap (A (x + s • e)) a = g.toMap (A x) a + s := by
    intro s a
    rw [hmap, hmap]
    simp only [he, mul_add, Finset.sum_add_distrib]
    have : ∑ k, rot a k * (s * u k) = s := by
      have := congrArg (fun t => s * t) (hu a)
      simp only [Finset.mul_sum, mul_one] at this
      refine Eq.trans (Finset.sum_congr rfl fun k _ => ?_) this
      ring
    rw [this]
    ring
  have hidx : jetIndex g.r (toMapJ rot trans q) = fun a => ⌊g.toMap (A x) a * (1 / bundleResolution g.r)⌋ := by
    funext a
    show ⌊(toMapJ rot trans q a).a * _⌋ = _
    rw [(hP a).1]
  have hev : ∀ y, occEvaluateDouble g dyn dens occ (some m) st (A y) = occEvaluateJet g dyn valid (fun s => bellOf (mean s) (inf s)) occ (some m) st (A y) :=
    fun y => (C62_occupancy g dyn valid _ dens hd occ m st (A y)).symm
  have hsame : ∀ y, (∀ a, ⌊g.toMap (A y) a * (1 / bundleResolution g.r)⌋ = ⌊g.toMap (A x) a * (1 / bundleResolution g.r)⌋) →
      (fun a => ⌊g.toMap (A y) a * (1 / bundleResolution g.r)⌋) = jetIndex g.r (toMapJ rot trans q) := fun y hy => by rw [hidx]; exact funext hy
  have hnn : ∀ y v, okValue (occEvaluateDouble g dyn dens occ (some m) st (A y)) = some v → 0 ≤ v := by
    intro y v h
    rw [hev] at h
    unfold occEvaluateJet at h
    simp only at h
    split at h
    · simp [okValue] at h
    · simp only [okValue, Option.some.injEq] at h
      linarith
    · rename_i b _
      cases hl : occJetLoop valid (fun s => bellOf (mean s) (inf s)) occ (some m) (g.toMap (A y)) b st (List.range (twoPow d)) 1 with
      | error s => rw [hl] at h; simp [Except.map, okValue] at h
      | ok w =>
        rw [hl] at h
        simp only [Except.map, okValue, Option.some.injEq] at h
        have := occJetLoop_bound valid mean inf hinf occ m hocc _ b st _ _ _ hl
        rw [List.length_range, divCount_mul, sub_self, h] at this
        exact this
  have hbd : (∀ a, ∀ k : ℤ, g.toMap (A x) a ≠ k * bundleResolution g.r) → ∀ a, ∀ k : ℤ, g.toMap (A x) a * (1 / bundleResolution g.r) ≠ k := by
    intro h a k e
    refine h a k ?_
    rw [← e]
    field_simp
  unfold occEvaluateJ
  simp only
  cases hb : st.getBundle dyn (jetIndex g.r (toMapJ rot trans q)) with
  | none =>
    left
    refine ⟨?_, rfl⟩
    rw [hev]
    unfold occEvaluateJet
    simp only [hsame x fun _ => rfl, hb]
  | some b =>
    right
    cases b with
    | none =>
      refine ⟨_, rfl, ?_⟩
      have := scan_differentiated hρ hP he' (Tracks.const (x := x) 1) (f := fun y => okValue (occEvaluateDouble g dyn dens occ (some m) st (A y))) (fun y hy => by
        simp only [hev]
        unfold occEvaluateJet
        simp only [hsame y hy, hb, okValue]) hnn weight
      exact ⟨this.1, fun h => this.2 (hbd h)⟩
    | some b =>
      refine ⟨_, rfl, ?_⟩
      obtain ⟨G, hG, hl⟩ := occJetLoop_tracks hP valid mean inf occ m b st (List.range (twoPow d)) _ _ (Tracks.const (x := x) 1)
      have := scan_differentiated hρ hP he' hG (f := fun y => okValue (occEvaluateDouble g dyn dens occ (some m) st (A y))) (fun y hy => by
        simp only [hev]
        unfold occEvaluateJet
        simp only [hsame y hy, hb, hl, Except.map, okValue]) hnn weight
      exact ⟨this.1, fun h => this.2 (hbd h)⟩

end general

/-! ### C102: the map term -/

theorem moved2_tracks (x : Fin 3 → ℝ) (p : Fin 2 → ℝ) (a : Fin 2) : Tracks x (fun y => moved2 ![y 0, y 1] (y 2) p a) (moved2J ![.var x 0, .var x 1] (.var x 2) p a) := by
  have h2 := Tracks.var (x := x) 2
  fin_cases a
  · exact ((h2.cos.mul (Tracks.const _)).sub (h2.sin.mul (Tracks.const _))).add (Tracks.var 0)
  · exact ((h2.sin.mul (Tracks.const _)).add (h2.cos.mul (Tracks.const _))).add (Tracks.var 1)

/-- a quaternion of `Jet`s that has the values and derivatives of a quaternion of functions -/
structure TracksQ (at' : Fin n → ℝ) (Q : (Fin n → ℝ) → Quat) (q : QuatJ n) : Prop where
  w : Tracks at' (fun y => (Q y).w) q.w
  x : Tracks at' (fun y => (Q y).x) q.x
  y : Tracks at' (fun y => (Q y).y) q.y
  z : Tracks at' (fun y => (Q y).z) q.z

theorem rotate_tracks {x : Fin n → ℝ} {Q : (Fin n → ℝ) → Quat} {q : QuatJ n} (h : TracksQ x Q q) (p : Fin 3 → ℝ) (a : Fin 3) : Tracks x (fun y => (Q y).rotate p a) (q.rotate p a) := by
  have c := fun i => Tracks.const (x := x) (p i)
  have u0 := ((h.y.mul (c 2)).sub (h.z.mul (c 1))).scale 2
  have u1 := ((h.z.mul (c 0)).sub (h.x.mul (c 2))).scale 2
  have u2 := ((h.x.mul (c 1)).sub (h.y.mul (c 0))).scale 2
  fin_cases a
  · exact ((c 0).add (h.w.mul u0)).add ((h.y.mul u2).sub (h.z.mul u1))
  · exact ((c 1).add (h.w.mul u1)).add ((h.z.mul u0).sub (h.x.mul u2))
  · exact ((c 2).add (h.w.mul u2)).add ((h.x.mul u1).sub (h.y.mul u0))

theorem toEigen_tracks {x : Fin n → ℝ} {R : (Fin n → ℝ) → Fin 3 → ℝ} {r : Fin 3 → Jet n} (h : ∀ i, Tracks x (fun y => R y i) (r i)) : TracksQ x (fun y => toEigen (R y)) (toEigenJ r) := by
  have t : ∀ i, Tracks x (fun y => R y i * (1 / 2)) ((r i).scale (1 / 2)) := fun i => ((h i).scale (1 / 2)).congr fun y => by ring
  exact {
    x := (((t 0).sin.mul (t 1).cos).mul (t 2).cos).sub (((t 0).cos.mul (t 1).sin).mul (t 2).sin)
    y := (((t 0).cos.mul (t 1).sin).mul (t 2).cos).add (((t 0).sin.mul (t 1).cos).mul (t 2).sin)
    z := (((t 0).cos.mul (t 1).cos).mul (t 2).sin).sub (((t 0).sin.mul (t 1).sin).mul (t 2).cos)
    w := (((t 0).cos.mul (t 1).cos).mul (t 2).cos).add (((t 0).sin.mul (t 1).sin).mul (t 2).sin) }

theorem moved3_tracks {x : Fin n → ℝ} {T : (Fin n → ℝ) → Fin 3 → ℝ} {t : Fin 3 → Jet n} {Q : (Fin n → ℝ) → Quat} {q : QuatJ n} (ht : ∀ i, Tracks x (fun y => T y i) (t i)) (hq : TracksQ x Q q) (p : Fin 3 → ℝ) (a : Fin 3) :
    Tracks x (fun y => moved3 (T y) (Q y) p a) (moved3J t q p a) := (rotate_tracks hq p a).add (ht a)

/-- What is assumed of a map: a positive resolution, an invertible transformation from the world to the map with the matrix `rot` and the offset `trans`, and of the distributions: the density is `exp(-½ (p - mean)ᵀ inf (p - mean))` for
valid ones and 0 for the others, and the information matrices of the valid ones have no negative directions. -/
structure Spec.Gaussian {d : Nat} {D : Type} (g : Geo ℝ d) (rot : Fin d → Fin d → ℝ) (trans : Fin d → ℝ) (valid : D → Bool) (mean : D → Fin d → ℝ) (inf : D → Fin d → Fin d → ℝ) (dens : D → Pt ℝ d → ℝ) : Prop where
  resolution : 0 < g.r
  toMap : ∀ q a, g.toMap q a = ∑ k, rot a k * q k + trans a
  invertible : ∀ w : Fin d → ℝ, ∃ u : Fin d → ℝ, ∀ a, ∑ k, rot a k * u k = w a
  density : ∀ s p, dens s p = if valid s then Real.exp (-(1 / 2) * ∑ i, ∑ k, (p i - mean s i) * inf s i k * (p k - mean s k)) else 0
  information : ∀ s, valid s = true → Nonnegative (inf s)

section maps
variable {D : Type} {W E M : Type}

/-- **C102** 2D scan matching on NDT maps. Parameters: translation (0, 1) and rotation (2). For every map, every scan point and every pose, either both evaluations leave the storage, or the `Jet` residual has the value of the residual
and, if the residual is differentiable in the pose, its derivative; if the point in the map is not on the border between two bundles it is differentiable. -/
theorem C102_scan_2d {B : Backend 2} (g : Geo ℝ 2) {rot : Fin 2 → Fin 2 → ℝ} {trans : Fin 2 → ℝ} {valid : D → Bool} {mean : D → Fin 2 → ℝ} {inf : D → Fin 2 → Fin 2 → ℝ} {dens : D → Pt ℝ 2 → ℝ}
    (hg : Gaussian g rot trans valid mean inf dens) (dyn : Bool) (st : St B D) (weight : ℝ) (p : Fin 2 → ℝ) (x : Fin 3 → ℝ) :
    let double := fun y : Fin 3 → ℝ => evaluateDouble g dyn dens st (moved2 ![y 0, y 1] (y 2) p)
    let jet := evaluateJ g.r rot trans dyn valid mean inf st (moved2J ![.var x 0, .var x 1] (.var x 2) p)
    let residual := fun y => (double y).map fun v => scanResidual weight (.fin v)
    (double x = none ∧ jet = none) ∨ ∃ j, jet = some j ∧ Differentiated residual x (scanResidualJ weight j) ∧
      ((∀ a, ∀ k : ℤ, g.toMap (moved2 ![x 0, x 1] (x 2) p) a ≠ k * bundleResolution g.r) → Smooth residual x (scanResidualJ weight j)) := by
  refine scan_gridmap g hg.resolution rot trans hg.toMap hg.invertible dyn valid mean inf hg.information dens hg.density st weight (A := fun y => moved2 ![y 0, y 1] (y 2) p) (moved2_tracks x p) fun w => ⟨![w 0, w 1, 0], ?_⟩
  intro s a
  fin_cases a <;> simp [moved2] <;> ring

/-- **C102** 2D scan matching on (weighted) occupancy maps. -/
theorem C102_scan_occupancy_2d {B : Backend 2} (g : Geo ℝ 2) {rot : Fin 2 → Fin 2 → ℝ} {trans : Fin 2 → ℝ} {valid : Multiset E → Bool} {mean : Multiset E → Fin 2 → ℝ} {inf : Multiset E → Fin 2 → Fin 2 → ℝ}
    {dens : Multiset E → Pt ℝ 2 → ℝ} (hg : Gaussian g rot trans valid mean inf dens) (occ : M → Occ W E → ℝ) (m : M) (hocc : ∀ o, occ m o ≤ 1) (dyn : Bool) (st : St B (Occ W E)) (weight : ℝ) (p : Fin 2 → ℝ) (x : Fin 3 → ℝ) :
    let double := fun y : Fin 3 → ℝ => occEvaluateDouble g dyn dens occ (some m) st (moved2 ![y 0, y 1] (y 2) p)
    let jet := occEvaluateJ g.r rot trans dyn valid mean inf (occ m) st (moved2J ![.var x 0, .var x 1] (.var x 2) p)
    let residual := fun y => (okValue (double y)).map fun v => scanResidual weight (.fin v)
    (double x = .ok none ∧ jet = none) ∨ ∃ j, jet = some j ∧ Differentiated residual x (scanResidualJ weight j) ∧
      ((∀ a, ∀ k : ℤ, g.toMap (moved2 ![x 0, x 1] (x 2) p) a ≠ k * bundleResolution g.r) → Smooth residual x (scanResidualJ weight j)) := by
  refine scan_occupancy g hg.resolution rot trans hg.toMap hg.invertible dyn valid mean inf hg.information dens hg.density occ m hocc st weight (A := fun y => moved2 ![y 0, y 1] (y 2) p) (moved2_tracks x p)
    fun w => ⟨![w 0, w 1, 0], ?_⟩
  intro s a
  fin_cases a <;> simp [moved2] <;> ring

theorem vector_tracks {x : Fin n → ℝ} (a b c : Fin n) (i : Fin 3) : Tracks x (fun y => ![y a, y b, y c] i) (![.var x a, .var x b, .var x c] i) := by
  fin_cases i
  · exact Tracks.var a
  · exact Tracks.var b
  · exact Tracks.var c

theorem quat_tracks (x : Fin 7 → ℝ) : TracksQ x (fun y => ⟨y 3, y 4, y 5, y 6⟩) ⟨.var x 3, .var x 4, .var x 5, .var x 6⟩ := ⟨Tracks.var 3, Tracks.var 4, Tracks.var 5, Tracks.var 6⟩

theorem rpy_tracks (x : Fin 6 → ℝ) : TracksQ x (fun y => toEigen ![y 3, y 4, y 5]) (toEigenJ ![.var x 3, .var x 4, .var x 5]) := by
  exact toEigen_tracks (R := fun y => ![y 3, y 4, y 5]) (vector_tracks 3 4 5)

/-- **C102** 3D scan matching with quaternions on NDT maps. Parameters: translation (0, 1, 2) and quaternion w, x, y, z (3, 4, 5, 6), normalised or not. -/
theorem C102_scan_quaternion {B : Backend 3} (g : Geo ℝ 3) {rot : Fin 3 → Fin 3 → ℝ} {trans : Fin 3 → ℝ} {valid : D → Bool} {mean : D → Fin 3 → ℝ} {inf : D → Fin 3 → Fin 3 → ℝ} {dens : D → Pt ℝ 3 → ℝ}
    (hg : Gaussian g rot trans valid mean inf dens) (dyn : Bool) (st : St B D) (weight : ℝ) (p : Fin 3 → ℝ) (x : Fin 7 → ℝ) :
    let double := fun y : Fin 7 → ℝ => evaluateDouble g dyn dens st (moved3 ![y 0, y 1, y 2] ⟨y 3, y 4, y 5, y 6⟩ p)
    let jet := evaluateJ g.r rot trans dyn valid mean inf st (moved3J ![.var x 0, .var x 1, .var x 2] ⟨.var x 3, .var x 4, .var x 5, .var x 6⟩ p)
    let residual := fun y => (double y).map fun v => scanResidual weight (.fin v)
    (double x = none ∧ jet = none) ∨ ∃ j, jet = some j ∧ Differentiated residual x (scanResidualJ weight j) ∧
      ((∀ a, ∀ k : ℤ, g.toMap (moved3 ![x 0, x 1, x 2] ⟨x 3, x 4, x 5, x 6⟩ p) a ≠ k * bundleResolution g.r) → Smooth residual x (scanResidualJ weight j)) := by
  refine scan_gridmap g hg.resolution rot trans hg.toMap hg.invertible dyn valid mean inf hg.information dens hg.density st weight (A := fun y => moved3 ![y 0, y 1, y 2] ⟨y 3, y 4, y 5, y 6⟩ p)
    (moved3_tracks (T := fun y => ![y 0, y 1, y 2]) (vector_tracks 0 1 2) (quat_tracks x) p) fun w => ⟨![w 0, w 1, w 2, 0, 0, 0, 0], ?_⟩
  intro s a
  fin_cases a <;> simp [moved3] <;> ring

/-- **C102** 3D scan matching with quaternions on (weighted) occupancy maps. -/
theorem C102_scan_occupancy_quaternion {B : Backend 3} (g : Geo ℝ 3) {rot : Fin 3 → Fin 3 → ℝ} {trans : Fin 3 → ℝ} {valid : Multiset E → Bool} {mean : Multiset E → Fin 3 → ℝ} {inf : Multiset E → Fin 3 → Fin 3 → ℝ}
    {dens : Multiset E → Pt ℝ 3 → ℝ} (hg : Gaussian g rot trans valid mean inf dens) (occ : M → Occ W E → ℝ) (m : M) (hocc : ∀ o, occ m o ≤ 1) (dyn : Bool) (st : St B (Occ W E)) (weight : ℝ) (p : Fin 3 → ℝ) (x : Fin 7 → ℝ) :
    let double := fun y : Fin 7 → ℝ => occEvaluateDouble g dyn dens occ (some m) st (moved3 ![y 0, y 1, y 2] ⟨y 3, y 4, y 5, y 6⟩ p)
    let jet := occEvaluateJ g.r rot trans dyn valid mean inf (occ m) st (moved3J ![.var x 0, .var x 1, .var x 2] ⟨.var x 3, .var x 4, .var x 5, .var x 6⟩ p)
    let residual := fun y => (okValue (double y)).map fun v => scanResidual weight (.fin v)
    (double x = .ok none ∧ jet = none) ∨ ∃ j, jet = some j ∧ Differentiated residual x (scanResidualJ weight j) ∧
      ((∀ a, ∀ k : ℤ, g.toMap (moved3 ![x 0, x 1, x 2] ⟨x 3, x 4, x 5, x 6⟩ p) a ≠ k * bundleResolution g.r) → Smooth residual x (scanResidualJ weight j)) := by
  refine scan_occupancy g hg.resolution rot trans hg.toMap hg.invertible dyn valid mean inf hg.information dens hg.density occ m hocc st weight (A := fun y => moved3 ![y 0, y 1, y 2] ⟨y 3, y 4, y 5, y 6⟩ p)
    (moved3_tracks (T := fun y => ![y 0, y 1, y 2]) (vector_tracks 0 1 2) (quat_tracks x) p) fun w => ⟨![w 0, w 1, w 2, 0, 0, 0, 0], ?_⟩
  intro s a
  fin_cases a <;> simp [moved3] <;> ring

/-- **C102** 3D scan matching with Euler angles on NDT maps. Parameters: translation (0, 1, 2) and roll, pitch, yaw (3, 4, 5). -/
theorem C102_scan_rpy {B : Backend 3} (g : Geo ℝ 3) {rot : Fin 3 → Fin 3 → ℝ} {trans : Fin 3 → ℝ} {valid : D → Bool} {mean : D → Fin 3 → ℝ} {inf : D → Fin 3 → Fin 3 → ℝ} {dens : D → Pt ℝ 3 → ℝ}
    (hg : Gaussian g rot trans valid mean inf dens) (dyn : Bool) (st : St B D) (weight : ℝ) (p : Fin 3 → ℝ) (x : Fin 6 → ℝ) :
    let double := fun y : Fin 6 → ℝ => evaluateDouble g dyn dens st (movedRPY ![y 0, y 1, y 2] ![y 3, y 4, y 5] p)
    let jet := evaluateJ g.r rot trans dyn valid mean inf st (movedRPYJ ![.var x 0, .var x 1, .var x 2] ![.var x 3, .var x 4, .var x 5] p)
    let residual := fun y => (double y).map fun v => scanResidual weight (.fin v)
    (double x = none ∧ jet = none) ∨ ∃ j, jet = some j ∧ Differentiated residual x (scanResidualJ weight j) ∧
      ((∀ a, ∀ k : ℤ, g.toMap (movedRPY ![x 0, x 1, x 2] ![x 3, x 4, x 5] p) a ≠ k * bundleResolution g.r) → Smooth residual x (scanResidualJ weight j)) := by
  refine scan_gridmap g hg.resolution rot trans hg.toMap hg.invertible dyn valid mean inf hg.information dens hg.density st weight (A := fun y => movedRPY ![y 0, y 1, y 2] ![y 3, y 4, y 5] p)
    (moved3_tracks (T := fun y => ![y 0, y 1, y 2]) (vector_tracks 0 1 2) (rpy_tracks x) p) fun w => ⟨![w 0, w 1, w 2, 0, 0, 0], ?_⟩
  intro s a
  fin_cases a <;> simp [movedRPY, moved3] <;> ring

/-- **C102** 3D scan matching with Euler angles on (weighted) occupancy maps. -/
theorem C102_scan_occupancy_rpy {B : Backend 3} (g : Geo ℝ 3) {rot : Fin 3 → Fin 3 → ℝ} {trans : Fin 3 → ℝ} {valid : Multiset E → Bool} {mean : Multiset E → Fin 3 → ℝ} {inf : Multiset E → Fin 3 → Fin 3 → ℝ}
    {dens : Multiset E → Pt ℝ 3 → ℝ} (hg : Gaussian g rot trans valid mean inf dens) (occ : M → Occ W E → ℝ) (m : M) (hocc : ∀ o, occ m o ≤ 1) (dyn : Bool) (st : St B (Occ W E)) (weight : ℝ) (p : Fin 3 → ℝ) (x : Fin 6 → ℝ) :
    let double := fun y : Fin 6 → ℝ => occEvaluateDouble g dyn dens occ (some m) st (movedRPY ![y 0, y 1, y 2] ![y 3, y 4, y 5] p)
    let jet := occEvaluateJ g.r rot trans dyn valid mean inf (occ m) st (movedRPYJ ![.var x 0, .var x 1, .var x 2] ![.var x 3, .var x 4, .var x 5] p)
    let residual := fun y => (okValue (double y)).map fun v => scanResidual weight (.fin v)
    (double x = .ok none ∧ jet = none) ∨ ∃ j, jet = some j ∧ Differentiated residual x (scanResidualJ weight j) ∧
      ((∀ a, ∀ k : ℤ, g.toMap (movedRPY ![x 0, x 1, x 2] ![x 3, x 4, x 5] p) a ≠ k * bundleResolution g.r) → Smooth residual x (scanResidualJ weight j)) := by
  refine scan_occupancy g hg.resolution rot trans hg.toMap hg.invertible dyn valid mean inf hg.information dens hg.density occ m hocc st weight (A := fun y => movedRPY ![y 0, y 1, y 2] ![y 3, y 4, y 5] p)
    (moved3_tracks (T := fun y => ![y 0, y 1, y 2]) (vector_tracks 0 1 2) (rpy_tracks x) p) fun w => ⟨![w 0, w 1, w 2, 0, 0, 0], ?_⟩
  intro s a
  fin_cases a <;> simp [movedRPY, moved3] <;> ring

end maps

/-! ### C102: the priors -/

theorem angleNorm_jet (f : Jet n) : Jet.atan2 f.sin f.cos = ⟨angleNorm f.a, f.v⟩ := by
  unfold Jet.atan2 Jet.sin Jet.cos
  simp only [Jet.mk.injEq]
  refine ⟨rfl, ?_⟩
  have h : Real.cos f.a * Real.cos f.a + Real.sin f.a * Real.sin f.a = 1 := by
    have := Real.sin_sq_add_cos_sq f.a
    nlinarith
  rw [h]
  funext k
  simp only [Pi.smul_apply, Pi.add_apply, smul_eq_mul]
  linear_combination (f.v k) * h

theorem abs_jet_a (f : Jet n) : f.abs.a = |f.a| := by
  unfold Jet.abs
  split_ifs with h
  · rw [abs_of_neg h]; rfl
  · rw [abs_of_nonneg (not_lt.1 h)]

/-- the difference of angles has the derivative parts of `-r` -/
theorem angleDifferenceJ_eq (prior : ℝ) (r : Jet n) : angleDifferenceJ (.const prior) r = ⟨angleDifference prior r.a, -r.v⟩ := by
  unfold angleDifferenceJ angleDifference
  simp only [angleNorm_jet]
  have e1 : (⟨angleNorm (Jet.const prior : Jet n).a, (Jet.const prior : Jet n).v⟩ : Jet n) - ⟨angleNorm r.a, r.v⟩ = ⟨angleNorm prior - angleNorm r.a, -r.v⟩ := by
    show Jet.mk (angleNorm prior - angleNorm r.a) (0 - r.v) = _
    rw [zero_sub]
  rw [e1]
  generalize angleNorm prior - angleNorm r.a = δ
  simp only [abs_jet_a]
  rcases lt_trichotomy δ 0 with h | h | h
  · have e2 : (Jet.const (2 * π) - (⟨δ, -r.v⟩ : Jet n).abs) * (if 0 < δ then Jet.const (-1) else Jet.const 1) = ⟨(2 * π - |δ|) * (if 0 < δ then -1 else 1), -r.v⟩ := by
      rw [if_neg (by linarith), if_neg (by linarith)]
      unfold Jet.abs
      rw [if_pos h, abs_of_neg h]
      show Jet.mk ((2 * π - -δ) * 1) ((2 * π - -δ) • (0 : Fin n → ℝ) + (1 : ℝ) • ((0 : Fin n → ℝ) - - -r.v)) = _
      simp
    rw [e2]
    split_ifs <;> rfl
  · subst h
    have : |(0 : ℝ)| < |(2 * π - |(0 : ℝ)|) * (if (0 : ℝ) < 0 then -1 else 1)| := by
      simp [Real.pi_pos.ne']
    rw [if_pos this, if_pos]
    refine lt_of_lt_of_eq this ?_
    congr 1
    simp only [lt_irrefl, if_false]
    show _ = ((2 * π) - (⟨0, -r.v⟩ : Jet n).abs.a) * 1
    rw [abs_jet_a]
  · have e2 : (Jet.const (2 * π) - (⟨δ, -r.v⟩ : Jet n).abs) * (if 0 < δ then Jet.const (-1) else Jet.const 1) = ⟨(2 * π - |δ|) * (if 0 < δ then -1 else 1), -r.v⟩ := by
      rw [if_pos h, if_pos h]
      unfold Jet.abs
      rw [if_neg (by simpa using h.le), abs_of_pos h]
      show Jet.mk ((2 * π - δ) * (-1)) ((2 * π - δ) • (0 : Fin n → ℝ) + (-1 : ℝ) • ((0 : Fin n → ℝ) - -r.v)) = _
      simp
    rw [e2]
    split_ifs <;> rfl

theorem eq_of_sameAngle_lt {a b : ℝ} (ha : |a| ≤ π) (hb : |b| < π) (h : SameAngle a b) : a = b := by
  obtain ⟨k, hk⟩ := h
  have h1 := abs_le.1 ha
  have h2 := abs_lt.1 hb
  have hπ := Real.pi_pos
  have hk1 : (k : ℝ) < 1 := by
    by_contra hc
    have : (1 : ℝ) ≤ k := not_lt.1 hc
    nlinarith
  have hk2 : (-1 : ℝ) < k := by
    by_contra hc
    have : (k : ℝ) ≤ -1 := not_lt.1 hc
    nlinarith
  have hk0 : k = 0 := by
    have a1 : k < 1 := by exact_mod_cast hk1
    have a2 : -1 < k := by exact_mod_cast hk2
    omega
  rw [hk0] at hk
  simp at hk
  linarith

theorem angleDifference_near (prior r y : ℝ) (h : |angleDifference prior r - (y - r)| < π) : angleDifference prior y = angleDifference prior r - (y - r) := by
  refine eq_of_sameAngle_lt (shortestDif_model prior y).2 h ?_
  obtain ⟨k, hk⟩ := (shortestDif_model prior y).1
  obtain ⟨l, hl⟩ := (shortestDif_model prior r).1
  refine ⟨k - l, ?_⟩
  push_cast
  linear_combination hk - hl

/-- the rotation prior as a function of one of the parameters -/
theorem rotation_differentiated (weight prior : ℝ) (i : Fin n) (x : Fin n → ℝ) :
    Differentiated (fun y => some (.fin (weight * angleDifference prior (y i)))) x ((angleDifferenceJ (.const prior) (.var x i)).scale weight) ∧
      (|angleDifference prior (x i)| < π → Smooth (fun y => some (.fin (weight * angleDifference prior (y i)))) x ((angleDifferenceJ (.const prior) (.var x i)).scale weight)) := by
  rw [angleDifferenceJ_eq]
  set c := angleDifference prior (x i) with hc
  have hT : Tracks x (fun y => weight * (c - (y i - x i))) ((⟨c, -(Jet.var x i).v⟩ : Jet n).scale weight) := by
    refine Tracks.scale weight ?_
    have := ((Tracks.const (x := x) c).sub ((Tracks.var i).sub (Tracks.const (x i))))
    refine ⟨by simp, ?_⟩
    have e := this.2
    have e2 : (Jet.const c - (Jet.var x i - Jet.const (x i)) : Jet n).v = -(Jet.var x i).v := by
      show (0 : Fin n → ℝ) - ((Jet.var x i).v - 0) = _
      simp
    rw [e2] at e
    exact e
  have hπ := Real.pi_pos
  have hle : |c| ≤ π := (shortestDif_model prior (x i)).2
  refine ⟨⟨rfl, ?_⟩, ?_⟩
  · intro F L hF hL
    have hFv : ∀ y, some (Fl.fin (weight * angleDifference prior (y i))) = some (.fin (F y)) → F y = weight * angleDifference prior (y i) := fun y h => (Fl.fin.inj (Option.some.inj h)).symm
    refine fderiv_eq_of_cone (S := {y | |c - (y i - x i)| < π}) (e := if 0 < c then Pi.single i 1 else -Pi.single i 1) hL hT.2 (by rw [hFv x hF.self_of_nhds]; simp [hc]) ?_ ?_
    · filter_upwards [hF] with y hy hS
      rw [hFv y hy, angleDifference_near prior (x i) (y i) hS]
    · intro u
      refine ⟨|u i| + 1, fun l hl => ?_⟩
      have hu := abs_le.1 (le_refl |u i|)
      have hc' := abs_le.1 hle
      split_ifs with h0
      · have hpos : 0 < u i + l := by linarith
        filter_upwards [self_mem_nhdsWithin, nhdsWithin_le_nhds (gt_mem_nhds (show (0 : ℝ) < π / (u i + l) by positivity))] with s hs hs2
        have hs' : (0 : ℝ) < s := hs
        have e : (x + s • (u + l • (Pi.single i 1 : Fin n → ℝ))) i - x i = s * (u i + l) := by
          simp only [Pi.add_apply, Pi.smul_apply, Pi.single_eq_same, smul_eq_mul]
          ring
        show |c - _| < π
        rw [e]
        have h1 : s * (u i + l) < π := by rwa [lt_div_iff₀ hpos] at hs2
        have h2 : 0 < s * (u i + l) := mul_pos hs' hpos
        rw [abs_lt]
        constructor <;> linarith
      · have hpos : 0 < l - u i := by linarith
        filter_upwards [self_mem_nhdsWithin, nhdsWithin_le_nhds (gt_mem_nhds (show (0 : ℝ) < π / (l - u i) by positivity))] with s hs hs2
        have hs' : (0 : ℝ) < s := hs
        have e : (x + s • (u + l • (-Pi.single i 1 : Fin n → ℝ))) i - x i = -(s * (l - u i)) := by
          simp only [Pi.add_apply, Pi.smul_apply, Pi.neg_apply, Pi.single_eq_same, smul_eq_mul]
          ring
        show |c - _| < π
        rw [e]
        have h1 : s * (l - u i) < π := by rwa [lt_div_iff₀ hpos] at hs2
        have h2 : 0 < s * (l - u i) := mul_pos hs' hpos
        rw [abs_lt]
        have := not_lt.1 h0
        constructor <;> linarith
  · intro hlt
    refine ⟨_, ?_, hT.2⟩
    have hcont : ContinuousAt (fun y : Fin n → ℝ => |c - (y i - x i)|) x := by
      have : Continuous (fun y : Fin n → ℝ => |c - (y i - x i)|) := by
        have hi : Continuous (fun y : Fin n → ℝ => y i) := continuous_apply i
        exact (continuous_const.sub (hi.sub continuous_const)).abs
      exact this.continuousAt
    have : ∀ᶠ y in 𝓝 x, |c - (y i - x i)| < π := hcont.eventually (gt_mem_nhds (by simpa using hlt))
    filter_upwards [this] with y hy
    rw [angleDifference_near prior (x i) (y i) hy]

theorem not_opposite {prior r : ℝ} (h : ¬SameAngle r (prior + π)) : |angleDifference prior r| < π := by
  refine lt_of_le_of_ne (shortestDif_model prior r).2 fun e => h ?_
  obtain ⟨k, hk⟩ := (shortestDif_model prior r).1
  rcases eq_or_eq_neg_of_abs_eq e with e | e <;> rw [e] at hk
  · exact ⟨k - 1, by push_cast; linear_combination hk⟩
  · exact ⟨k, by linear_combination hk⟩

/-- **C102** The 2D rotation prior. It is differentiable unless the rotation is opposite to the prior. -/
theorem C102_rotation_2d (weight prior : ℝ) (x : Fin 1 → ℝ) :
    let residual := fun y : Fin 1 → ℝ => some (Fl.fin (rotationResidual2 weight prior (y 0)))
    Differentiated residual x (rotationResidual2J weight prior (.var x 0)) ∧ ((¬SameAngle (x 0) (prior + π)) → Smooth residual x (rotationResidual2J weight prior (.var x 0))) := by
  have h := rotation_differentiated weight prior 0 x
  refine ⟨h.1, fun hne => h.2 (not_opposite hne)⟩

/-- **C102** The rotation prior on Euler angles, each residual as a function of the three angles. -/
theorem C102_rotation_rpy (weight : ℝ) (prior : Fin 3 → ℝ) (x : Fin 3 → ℝ) (i : Fin 3) :
    let residual := fun y : Fin 3 → ℝ => some (Fl.fin (rotationResidualRPY weight prior y i))
    Differentiated residual x (rotationResidualRPYJ weight prior (fun k => .var x k) i) ∧ ((¬SameAngle (x i) (prior i + π)) → Smooth residual x (rotationResidualRPYJ weight prior (fun k => .var x k) i)) := by
  have h := rotation_differentiated weight (prior i) i x
  refine ⟨h.1, fun hne => h.2 (not_opposite hne)⟩

/-- **C102** The translation priors are differentiable everywhere. -/
theorem C102_translation {d : Nat} (weight : ℝ) (prior x : Fin d → ℝ) (i : Fin d) :
    let residual := fun y : Fin d → ℝ => some (Fl.fin (translationResidual weight prior y i))
    Differentiated residual x (translationResidualJ weight prior (fun k => .var x k) i) ∧ Smooth residual x (translationResidualJ weight prior (fun k => .var x k) i) :=
  (((Tracks.var (x := x) i).sub (Tracks.const (prior i))).scale weight).differentiated

theorem mul_tracks {x : Fin n → ℝ} {P Q : (Fin n → ℝ) → Quat} {p q : QuatJ n} (h : TracksQ x P p) (k : TracksQ x Q q) : TracksQ x (fun y => (P y).mul (Q y)) (p.mul q) where
  w := (((h.w.mul k.w).sub (h.x.mul k.x)).sub (h.y.mul k.y)).sub (h.z.mul k.z)
  x := (((h.w.mul k.x).add (h.x.mul k.w)).add (h.y.mul k.z)).sub (h.z.mul k.y)
  y := (((h.w.mul k.y).sub (h.x.mul k.z)).add (h.y.mul k.w)).add (h.z.mul k.x)
  z := (((h.w.mul k.z).add (h.x.mul k.y)).sub (h.y.mul k.x)).add (h.z.mul k.w)

theorem constQ_tracks (x : Fin n → ℝ) (q : Quat) : TracksQ x (fun _ => q) (.const q) := ⟨Tracks.const _, Tracks.const _, Tracks.const _, Tracks.const _⟩

/-- **C102** The rotation prior on quaternions is differentiable everywhere. -/
theorem C102_rotation_quaternion (weight : ℝ) (prior : Quat) (x : Fin 4 → ℝ) (i : Fin 4) :
    let residual := fun y : Fin 4 → ℝ => some (Fl.fin (rotationResidualQuat weight prior ⟨y 0, y 1, y 2, y 3⟩ i))
    Differentiated residual x (rotationResidualQuatJ weight prior ⟨.var x 0, .var x 1, .var x 2, .var x 3⟩ i) ∧
      Smooth residual x (rotationResidualQuatJ weight prior ⟨.var x 0, .var x 1, .var x 2, .var x 3⟩ i) := by
  have h := mul_tracks (constQ_tracks x prior.inv) (Q := fun y => ⟨y 0, y 1, y 2, y 3⟩) (q := ⟨.var x 0, .var x 1, .var x 2, .var x 3⟩) ⟨Tracks.var 0, Tracks.var 1, Tracks.var 2, Tracks.var 3⟩
  fin_cases i
  · exact (h.w.scale weight).differentiated
  · exact (h.x.scale weight).differentiated
  · exact (h.y.scale weight).differentiated
  · exact (h.z.scale weight).differentiated

/-! ### C102: the parameter updates -/

theorem Tracks.differentiated' {x : Fin n → ℝ} {F : (Fin n → ℝ) → ℝ} {j : Jet n} {r : (Fin n → ℝ) → Option (Fl ℝ)} (h : Tracks x F j) (hr : ∀ᶠ y in 𝓝 x, r y = some (.fin (F y))) : Differentiated r x j ∧ Smooth r x j := by
  refine ⟨⟨by rw [hr.self_of_nhds, h.1], ?_⟩, F, hr, h.2⟩
  intro F' L hF hL
  have e : F =ᶠ[𝓝 x] F' := by
    filter_upwards [hF, hr] with y hy hy'
    exact Fl.fin.inj (Option.some.inj (hy'.symm.trans hy))
  exact (hL.congr_of_eventuallyEq e).unique h.2

theorem clamp_differentiated (c : ℝ) (i : Fin n) :
    Differentiated (fun y => some (.fin (clamp (c + y i) (-π) π))) 0 (clampJ (.const c + .var 0 i) (.const (-π)) (.const π)) ∧
      (|c| ≠ π → Smooth (fun y => some (.fin (clamp (c + y i) (-π) π))) 0 (clampJ (.const c + .var 0 i) (.const (-π)) (.const π))) ∧
      (clampJ (.const c + .var (0 : Fin n → ℝ) i) (.const (-π)) (.const π)).v = if |c| ≤ π then Pi.single i 1 else 0 := by
  have hπ := Real.pi_pos
  have ha : (Jet.const c + Jet.var (0 : Fin n → ℝ) i).a = c := by
    show c + (0 : Fin n → ℝ) i = c
    simp
  have hc : Continuous (fun y : Fin n → ℝ => c + y i) := continuous_const.add (continuous_apply i)
  have hc0 : (fun y : Fin n → ℝ => c + y i) 0 = c := by simp
  unfold clampJ
  simp only [ha]
  show Differentiated _ 0 (if π < c then _ else if c < -π then _ else _) ∧ (_ → Smooth _ 0 (if π < c then _ else if c < -π then _ else _)) ∧ (if π < c then _ else if c < -π then _ else _ : Jet n).v = _
  by_cases h1 : π < c
  · simp only [if_pos h1]
    have hev : ∀ᶠ y in 𝓝 (0 : Fin n → ℝ), some (Fl.fin (clamp (c + y i) (-π) π)) = some (.fin π) := by
      filter_upwards [hc.continuousAt.eventually (lt_mem_nhds (by rw [hc0]; exact h1))] with y hy
      unfold clamp
      rw [if_pos hy]
    have := (Tracks.const (x := (0 : Fin n → ℝ)) π).differentiated' hev
    refine ⟨this.1, fun _ => this.2, ?_⟩
    rw [if_neg]
    · rfl
    · rw [not_le, lt_abs]
      exact Or.inl h1
  · simp only [if_neg h1]
    by_cases h2 : c < -π
    · simp only [if_pos h2]
      have hev : ∀ᶠ y in 𝓝 (0 : Fin n → ℝ), some (Fl.fin (clamp (c + y i) (-π) π)) = some (.fin (-π)) := by
        filter_upwards [hc.continuousAt.eventually (gt_mem_nhds (by rw [hc0]; exact h2))] with y hy
        unfold clamp
        rw [if_neg (by linarith), if_pos hy]
      have := (Tracks.const (x := (0 : Fin n → ℝ)) (-π)).differentiated' hev
      refine ⟨this.1, fun _ => this.2, ?_⟩
      rw [if_neg]
      · rfl
      · rw [not_le, lt_abs]
        exact Or.inr (by linarith)
    · simp only [if_neg h2]
      have h1' := not_lt.1 h1
      have h2' := not_lt.1 h2
      have hT : Tracks (0 : Fin n → ℝ) (fun y => c + y i) (.const c + .var 0 i) := (Tracks.const c).add (Tracks.var i)
      have hin : ∀ y : Fin n → ℝ, -π ≤ c + y i → c + y i ≤ π → clamp (c + y i) (-π) π = c + y i := by
        intro y a b
        unfold clamp
        rw [if_neg (by linarith), if_neg (by linarith)]
      refine ⟨⟨?_, ?_⟩, ?_, ?_⟩
      · have := hin 0 (by simpa using h2') (by simpa using h1')
        rw [this, hT.1]
      · intro F L hF hL
        have hFv : ∀ y, some (Fl.fin (clamp (c + y i) (-π) π)) = some (.fin (F y)) → F y = clamp (c + y i) (-π) π := fun y h => (Fl.fin.inj (Option.some.inj h)).symm
        refine fderiv_eq_of_cone (S := {y | -π ≤ c + y i ∧ c + y i ≤ π}) (e := if 0 < c then -Pi.single i 1 else Pi.single i 1) hL hT.2
          (by rw [hFv 0 hF.self_of_nhds, hin 0 (by simpa using h2') (by simpa using h1')]) ?_ ?_
        · filter_upwards [hF] with y hy hS
          rw [hFv y hy, hin y hS.1 hS.2]
        · intro u
          refine ⟨|u i| + 1, fun l hl => ?_⟩
          have hu := abs_le.1 (le_refl |u i|)
          split_ifs with h0
          · have hpos : 0 < l - u i := by linarith
            filter_upwards [self_mem_nhdsWithin, nhdsWithin_le_nhds (gt_mem_nhds (show (0 : ℝ) < π / (l - u i) by positivity))] with s hs hs2
            have hs' : (0 : ℝ) < s := hs
            have e : ((0 : Fin n → ℝ) + s • (u + l • (-Pi.single i 1 : Fin n → ℝ))) i = -(s * (l - u i)) := by
              simp only [Pi.add_apply, Pi.smul_apply, Pi.neg_apply, Pi.single_eq_same, smul_eq_mul, Pi.zero_apply]
              ring
            show -π ≤ c + _ ∧ c + _ ≤ π
            rw [e]
            have h1 : s * (l - u i) < π := by rwa [lt_div_iff₀ hpos] at hs2
            have h2 : 0 < s * (l - u i) := mul_pos hs' hpos
            constructor <;> linarith
          · have hpos : 0 < u i + l := by linarith
            filter_upwards [self_mem_nhdsWithin, nhdsWithin_le_nhds (gt_mem_nhds (show (0 : ℝ) < π / (u i + l) by positivity))] with s hs hs2
            have hs' : (0 : ℝ) < s := hs
            have e : ((0 : Fin n → ℝ) + s • (u + l • (Pi.single i 1 : Fin n → ℝ))) i = s * (u i + l) := by
              simp only [Pi.add_apply, Pi.smul_apply, Pi.single_eq_same, smul_eq_mul, Pi.zero_apply]
              ring
            show -π ≤ c + _ ∧ c + _ ≤ π
            rw [e]
            have h1 : s * (u i + l) < π := by rwa [lt_div_iff₀ hpos] at hs2
            have h2 : 0 < s * (u i + l) := mul_pos hs' hpos
            have := not_lt.1 h0
            constructor <;> linarith
      · intro hne
        have hlt : |c| < π := lt_of_le_of_ne (abs_le.2 ⟨h2', h1'⟩) hne
        obtain ⟨a, b⟩ := abs_lt.1 hlt
        refine ⟨_, ?_, hT.2⟩
        filter_upwards [hc.continuousAt.eventually (gt_mem_nhds (by rw [hc0]; exact b)), hc.continuousAt.eventually (lt_mem_nhds (by rw [hc0]; exact a))] with y hy1 hy2
        rw [hin y hy2.le hy1.le]
      · rw [if_pos (abs_le.2 ⟨h2', h1'⟩)]
        show (0 : Fin n → ℝ) + Pi.single i 1 = _
        simp

/-- **C102** `EulerPlus`: the Jacobian at the step 0 is the derivative of the update in the step, wherever there is one, and there is one unless the angle is ±π. It is the identity for angles in `[-π, π]`; for an angle outside it is 0:
the solver does not see that the residuals depend on this angle. -/
theorem C102_euler_plus {m : Nat} (x : Fin m → ℝ) (i : Fin m) :
    let update := fun delta : Fin m → ℝ => some (Fl.fin (eulerPlus x delta i))
    let jet := eulerPlusJ (fun k => .const (x k)) (fun k => .var (0 : Fin m → ℝ) k) i
    Differentiated update 0 jet ∧ (|x i| ≠ π → Smooth update 0 jet) ∧ jet.v = if |x i| ≤ π then Pi.single i 1 else 0 := clamp_differentiated (x i) i

/-- **C102** `YawOnlyEulerPlus`: only the yaw depends on the step. -/
theorem C102_yaw_only_euler_plus (x : Fin 3 → ℝ) (i : Fin 3) :
    let update := fun delta : Fin 1 → ℝ => some (Fl.fin (yawOnlyEulerPlus x (delta 0) i))
    let jet := yawOnlyEulerPlusJ (fun k => .const (x k)) (.var (0 : Fin 1 → ℝ) 0) i
    Differentiated update 0 jet ∧ (|x 2| ≠ π → Smooth update 0 jet) ∧ jet.v 0 = if i = 2 ∧ |x 2| ≤ π then 1 else 0 := by
  fin_cases i
  · have := (Tracks.const (x := (0 : Fin 1 → ℝ)) (x 0)).differentiated
    refine ⟨this.1, fun _ => this.2, ?_⟩
    rfl
  · have := (Tracks.const (x := (0 : Fin 1 → ℝ)) (x 1)).differentiated
    refine ⟨this.1, fun _ => this.2, ?_⟩
    rfl
  · obtain ⟨h1, h2, h3⟩ := clamp_differentiated (n := 1) (x 2) 0
    refine ⟨h1, h2, ?_⟩
    show (clampJ (.const (x 2) + .var (0 : Fin 1 → ℝ) 0) (.const (-π)) (.const π)).v 0 = _
    rw [h3]
    by_cases h : |x 2| ≤ π
    · rw [if_pos h, if_pos ⟨rfl, h⟩]; simp
    · rw [if_neg h, if_neg fun c => h c.2]; simp

/-- **C102** `YawOnlyQuaternionPlus`: the Jacobian at the step 0 is the derivative of the update, namely the product of the unit quaternion k and the quaternion. -/
theorem C102_yaw_only_quaternion_plus (x : Quat) :
    let update := fun (part : Quat → ℝ) (delta : Fin 1 → ℝ) => some (Fl.fin (part (yawOnlyQuatPlus x (delta 0))))
    let jet := yawOnlyQuatPlusJ (.const x) (.var (0 : Fin 1 → ℝ) 0)
    (Smooth (update Quat.w) 0 jet.w ∧ Smooth (update Quat.x) 0 jet.x ∧ Smooth (update Quat.y) 0 jet.y ∧ Smooth (update Quat.z) 0 jet.z) ∧
      (jet.w.a = x.w ∧ jet.x.a = x.x ∧ jet.y.a = x.y ∧ jet.z.a = x.z) ∧
      (⟨jet.w.v 0, jet.x.v 0, jet.y.v 0, jet.z.v 0⟩ : Quat) = Quat.mul ⟨0, 0, 0, 1⟩ x := by
  have hj : clampJ (.var (0 : Fin 1 → ℝ) 0) (.const (-(1 / 2))) (.const (1 / 2)) = .var (0 : Fin 1 → ℝ) 0 := by
    unfold clampJ
    have : (Jet.var (0 : Fin 1 → ℝ) 0).a = 0 := rfl
    rw [this]
    rw [if_neg (by show ¬((1 : ℝ) / 2 < 0); norm_num), if_neg (by show ¬((0 : ℝ) < -(1 / 2)); norm_num)]
  have hev : ∀ᶠ y in 𝓝 (0 : Fin 1 → ℝ), yawOnlyQuatPlus x (y 0) = Quat.mul ⟨√(1 - y 0 * y 0), 0, 0, y 0⟩ x := by
    have hc : Continuous (fun y : Fin 1 → ℝ => y 0) := continuous_apply 0
    filter_upwards [hc.continuousAt.eventually (gt_mem_nhds (show (0 : Fin 1 → ℝ) 0 < 1 / 2 by norm_num)), hc.continuousAt.eventually (lt_mem_nhds (show -(1 / 2) < (0 : Fin 1 → ℝ) 0 by norm_num))] with y h1 h2
    unfold yawOnlyQuatPlus
    have : clamp (y 0) (-(1 / 2)) (1 / 2) = y 0 := by
      unfold clamp
      rw [if_neg (by linarith), if_neg (by linarith)]
    simp only [this]
  have hv := Tracks.var (x := (0 : Fin 1 → ℝ)) 0
  have hs : Tracks (0 : Fin 1 → ℝ) (fun y => √(1 - y 0 * y 0)) (.const 1 - .var (0 : Fin 1 → ℝ) 0 * .var (0 : Fin 1 → ℝ) 0 : Jet 1).sqrt := ((Tracks.const 1).sub (hv.mul hv)).sqrt (by norm_num)
  have hq : TracksQ (0 : Fin 1 → ℝ) (fun y => Quat.mul ⟨√(1 - y 0 * y 0), 0, 0, y 0⟩ x) (yawOnlyQuatPlusJ (.const x) (.var (0 : Fin 1 → ℝ) 0)) := by
    unfold yawOnlyQuatPlusJ
    simp only [hj]
    exact mul_tracks (P := fun y => ⟨√(1 - y 0 * y 0), 0, 0, y 0⟩) ⟨hs, Tracks.const 0, Tracks.const 0, hv⟩ (constQ_tracks _ x)
  refine ⟨⟨⟨_, ?_, hq.w.2⟩, ⟨_, ?_, hq.x.2⟩, ⟨_, ?_, hq.y.2⟩, ⟨_, ?_, hq.z.2⟩⟩, ⟨?_, ?_, ?_, ?_⟩, ?_⟩
  · filter_upwards [hev] with y hy; rw [hy]
  · filter_upwards [hev] with y hy; rw [hy]
  · filter_upwards [hev] with y hy; rw [hy]
  · filter_upwards [hev] with y hy; rw [hy]
  · rw [hq.w.1]; simp [Quat.mul]
  · rw [hq.x.1]; simp [Quat.mul]
  · rw [hq.y.1]; simp [Quat.mul]
  · rw [hq.z.1]; simp [Quat.mul]
  · unfold yawOnlyQuatPlusJ
    simp only [hj]
    have e : (Jet.const 1 - Jet.var (0 : Fin 1 → ℝ) 0 * Jet.var (0 : Fin 1 → ℝ) 0 : Jet 1).sqrt = ⟨1, 0⟩ := by
      show Jet.mk (√(1 - 0 * 0)) ((1 / (2 * √(1 - 0 * 0))) • ((0 : Fin 1 → ℝ) - ((0 : ℝ) • (Jet.var (0 : Fin 1 → ℝ) 0).v + (0 : ℝ) • (Jet.var (0 : Fin 1 → ℝ) 0).v))) = _
      simp
    rw [e]
    have m : ∀ (f g : Jet 1), (f * g).v 0 = f.a * g.v 0 + g.a * f.v 0 := fun f g => rfl
    have a : ∀ (f g : Jet 1), (f + g).v 0 = f.v 0 + g.v 0 := fun f g => rfl
    have b : ∀ (f g : Jet 1), (f - g).v 0 = f.v 0 - g.v 0 := fun f g => rfl
    simp only [QuatJ.mul, QuatJ.const, m, a, b, Jet.const, Jet.var, Quat.mul, Pi.single_eq_same, Pi.zero_apply]
    ext <;> simp

/-! ### samples -/

/-- a map with a rotated and shifted origin, valid distributions having three points, with round bells around the first coordinates of the sum -/
example : Gaussian (d := 2) (D := Multiset (Pt ℝ 2)) { r := 1, toMap := fun q => ![-q 1 + 3, q 0 - 2], normal := fun _ => true } ![![0, -1], ![1, 0]] ![3, -2] (fun s => decide (3 ≤ s.card)) (fun s => s.sum)
    (fun _ => ![![2, 0], ![0, 2]]) (fun s p => if decide (3 ≤ s.card) then Real.exp (-(1 / 2) * ∑ i, ∑ k, (p i - s.sum i) * (![![2, 0], ![0, 2]] : Fin 2 → Fin 2 → ℝ) i k * (p k - s.sum k)) else 0) where
  resolution := by norm_num
  toMap := by intro q a; fin_cases a <;> simp [Fin.sum_univ_two]; ring
  invertible := by
    intro w
    refine ⟨![w 1, -w 0], fun a => ?_⟩
    fin_cases a <;> simp [Fin.sum_univ_two]
  density := fun s p => rfl
  information := by
    intro s _ u
    simp [Fin.sum_univ_two]
    nlinarith [mul_self_nonneg (u 0), mul_self_nonneg (u 1)]

/-- a derivative that is not 0: one bell of variance 1 in one dimension, seen from the point `x` -/
example (x : Fin 1 → ℝ) : (bellJ (d := 1) ![0] ![![1]] ![.var x 0]).v 0 = -x 0 * Real.exp (-(1 / 2) * (x 0 * x 0)) := by
  have h := bell_tracks (d := 1) (P := fun y => ![y 0]) (x := x) (pj := ![.var x 0]) (fun a => by fin_cases a; exact Tracks.var 0) ![0] ![![1]]
  have h2 : HasFDerivAt (fun y : Fin 1 → ℝ => Real.exp (-(1 / 2) * (y 0 * y 0))) (Real.exp (-(1 / 2) * (x 0 * x 0)) • ((-(1 / 2) : ℝ) • (x 0 • ContinuousLinearMap.proj (R := ℝ) (φ := fun _ : Fin 1 => ℝ) 0 + x 0 • ContinuousLinearMap.proj (R := ℝ) (φ := fun _ : Fin 1 => ℝ) 0))) x :=
    (((hasFDerivAt_apply (𝕜 := ℝ) (0 : Fin 1) x).mul (hasFDerivAt_apply (𝕜 := ℝ) (0 : Fin 1) x)).const_mul (-(1 / 2))).exp
  have e : (fun y : Fin 1 → ℝ => bellOf (d := 1) ![0] ![![1]] ![y 0]) = fun y => Real.exp (-(1 / 2) * (y 0 * y 0)) := by
    funext y
    simp [bellOf]
  have h3 := h.2
  rw [e] at h3
  have := congrArg (fun L => L (Pi.single 0 1)) (h3.unique h2)
  simp [lin_apply] at this
  rw [this]
  ring

/-- the rotation prior is differentiable at a rotation that is not opposite, with derivative `-weight` -/
example : (rotationResidual2J 3 0 (.var ![1] 0) : Jet 1).v 0 = -3 := by
  unfold rotationResidual2J
  rw [angleDifferenceJ_eq]
  simp [Jet.scale, Jet.var]

/-- an angle outside of `[-π, π]`: the Jacobian is 0 -/
example : (eulerPlusJ (fun k => .const ((![4] : Fin 1 → ℝ) k)) (fun k => .var (0 : Fin 1 → ℝ) k) 0).v = 0 := by
  have h := (C102_euler_plus (![4] : Fin 1 → ℝ) 0).2.2
  refine h.trans ?_
  rw [if_neg]
  have := Real.pi_lt_four
  simp
  exact this

end Ndt
