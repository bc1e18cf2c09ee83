import Verif.Props.Jet
import Verif.Props.Problem
import Verif.Props.MatchFrame

/-!
C102 for the whole problem: the residuals and derivatives that ceres gets by automatic differentiation give the gradient of the cost that is minimised. The gradient is the sum over all residuals of the value times the derivative parts of
the `Jet`.
-/

namespace Ndt

open Real Matching Spec Filter Topology

variable {n : Nat}

/-- `jets` are the residuals of all blocks of the problem at the parameters `x`, with their derivatives. Near `x`, the cost is a number; at `x` it is half the sum of the squared values of the `Jet`s, and its gradient is the sum of the values times
the derivative parts. -/
def Spec.GradientOf (cost : (Fin n → ℝ) → Fl ℝ) (x : Fin n → ℝ) (jets : List (Jet n)) : Prop :=
  ∃ C : (Fin n → ℝ) → ℝ, (∀ᶠ y in 𝓝 x, cost y = .fin (C y)) ∧ C x = 1 / 2 * (jets.map fun j => j.a ^ 2).sum ∧ HasFDerivAt C (lin fun k => (jets.map fun j => j.a * j.v k).sum) x

theorem tracks_of_smooth {r : (Fin n → ℝ) → Option (Fl ℝ)} {x : Fin n → ℝ} {j : Jet n} (h1 : Differentiated r x j) (h2 : Smooth r x j) : ∃ F, (∀ᶠ y in 𝓝 x, r y = some (.fin (F y))) ∧ Tracks x F j := by
  obtain ⟨F, hF, hL⟩ := h2
  refine ⟨F, hF, ?_, hL⟩
  have := hF.self_of_nhds
  rw [h1.value] at this
  exact Fl.fin.inj (Option.some.inj this)

/-- residual `f` (a value for all parameters) with its jet: `f` is the residual of C102 where that is defined -/
def Residual (x : Fin n → ℝ) (e : ((Fin n → ℝ) → Fl ℝ) × Jet n) : Prop := ∃ F : (Fin n → ℝ) → ℝ, (∀ᶠ y in 𝓝 x, e.1 y = .fin (F y)) ∧ Tracks x F e.2

theorem residual_of_tracks {x : Fin n → ℝ} {F : (Fin n → ℝ) → ℝ} {j : Jet n} (h : Tracks x F j) : Residual x (fun y => .fin (F y), j) := ⟨F, Eventually.of_forall fun _ => rfl, h⟩

theorem residual_of_smooth {x : Fin n → ℝ} {f : (Fin n → ℝ) → Fl ℝ} {r : (Fin n → ℝ) → Option (Fl ℝ)} {j : Jet n} (hf : ∀ y v, r y = some v → f y = v) (h1 : Differentiated r x j) (h2 : Smooth r x j) : Residual x (f, j) := by
  obtain ⟨F, hF, hT⟩ := tracks_of_smooth h1 h2
  exact ⟨F, hF.mono fun y hy => hf y _ hy, hT⟩

theorem residuals_sum {x : Fin n → ℝ} : ∀ (l : List (((Fin n → ℝ) → Fl ℝ) × Jet n)), (∀ e ∈ l, Residual x e) →
    ∃ R : (Fin n → ℝ) → List ℝ, (∀ᶠ y in 𝓝 x, l.map (fun e => e.1 y) = (R y).map .fin) ∧ ((R x).map (· ^ 2)).sum = (l.map fun e => e.2.a ^ 2).sum ∧
      HasFDerivAt (fun y => ((R y).map (· ^ 2)).sum) (lin ((2 : ℝ) • fun k => (l.map fun e => e.2.a * e.2.v k).sum)) x
  | [], _ => ⟨fun _ => [], Eventually.of_forall fun _ => rfl, rfl, by
      have e : ((2 : ℝ) • fun k : Fin n => (([] : List (((Fin n → ℝ) → Fl ℝ) × Jet n)).map fun e => e.2.a * e.2.v k).sum) = 0 := by ext k; simp
      rw [e, lin_zero]
      exact hasFDerivAt_const _ _⟩
  | e :: l, h => by
    obtain ⟨R, h1, h2, h3⟩ := residuals_sum l fun e' he => h e' (List.mem_cons_of_mem _ he)
    obtain ⟨F, hF, hT⟩ := h e List.mem_cons_self
    refine ⟨fun y => F y :: R y, ?_, ?_, ?_⟩
    · filter_upwards [h1, hF] with y k1 k2
      rw [List.map_cons, List.map_cons, k1, k2]
    · rw [List.map_cons, List.sum_cons, h2, List.map_cons, List.sum_cons, hT.1]
    · have k := (hT.mul hT).2.add h3
      have e1 : (fun y => (((F y :: R y) : List ℝ).map (· ^ 2)).sum) = (fun y => F y * F y) + fun y => ((R y).map (· ^ 2)).sum := by
        ext y
        simp [sq]
      have e2 : lin ((2 : ℝ) • fun k => ((e :: l).map fun e => e.2.a * e.2.v k).sum) = lin (e.2 * e.2).v + lin ((2 : ℝ) • fun k => (l.map fun e => e.2.a * e.2.v k).sum) := by
        rw [← lin_add]
        congr 1
        ext k
        show 2 * ((e :: l).map fun e => e.2.a * e.2.v k).sum = (e.2.a * e.2.v k + e.2.a * e.2.v k) + 2 * _
        rw [List.map_cons, List.sum_cons]
        ring
      rw [e1, e2]
      exact k

theorem gradient_of_residuals {X Y : Type} (P : Problem X Y) (t : (Fin n → ℝ) → X) (r : (Fin n → ℝ) → Y) (x : Fin n → ℝ) (l : List (((Fin n → ℝ) → Fl ℝ) × Jet n)) (hl : ∀ e ∈ l, Residual x e)
    (hP : ∀ y, P.all (t y) (r y) = l.map fun e => e.1 y) : GradientOf (fun y => P.cost (t y) (r y)) x (l.map Prod.snd) := by
  obtain ⟨R, h1, h2, h3⟩ := residuals_sum l hl
  refine ⟨fun y => 1 / 2 * ((R y).map (· ^ 2)).sum, ?_, ?_, ?_⟩
  · filter_upwards [h1] with y hy
    unfold Problem.cost
    rw [hP, hy]
    have := cost_fold (R y) 0
    have e : (0 : Fl ℝ) = .fin 0 := rfl
    rw [e, this, zero_add]
    rfl
  · simp only
    rw [h2, List.map_map]
    rfl
  · have k := h3.const_mul (1 / 2)
    rw [← lin_smul] at k
    have e : (1 / 2 : ℝ) • ((2 : ℝ) • fun k => (l.map fun e => e.2.a * e.2.v k).sum) = fun k => ((l.map Prod.snd).map fun j : Jet n => j.a * j.v k).sum := by
      ext k
      rw [List.map_map, Pi.smul_apply, Pi.smul_apply, smul_eq_mul, smul_eq_mul, ← mul_assoc, show (1 / 2 : ℝ) * 2 = 1 by norm_num, one_mul]
      rfl
    rw [e] at k
    exact k

/-- the residuals of the three blocks and their jets; a block with weight 0 is not added -/
noncomputable def blocks {α : Type} (mw tw rw' : ℝ) (scan trans rot : List α) : List α := (if mw ≠ 0 then scan else []) ++ (if tw ≠ 0 then trans else []) ++ (if rw' ≠ 0 then rot else [])

theorem blocks_map {α β : Type} (f : α → β) (mw tw rw' : ℝ) (scan trans rot : List α) : (blocks mw tw rw' scan trans rot).map f = blocks mw tw rw' (scan.map f) (trans.map f) (rot.map f) := by
  unfold blocks
  split_ifs <;> simp

theorem mem_blocks {α : Type} {mw tw rw' : ℝ} {scan trans rot : List α} {e : α} (h : e ∈ blocks mw tw rw' scan trans rot) : (mw ≠ 0 ∧ e ∈ scan) ∨ e ∈ trans ∨ e ∈ rot := by
  unfold blocks at h
  rw [List.mem_append, List.mem_append] at h
  rcases h with (h | h) | h
  · split_ifs at h with h'
    · exact Or.inl ⟨h', h⟩
    · simp at h
  · split_ifs at h
    · exact Or.inr (Or.inl h)
    · simp at h
  · split_ifs at h
    · exact Or.inr (Or.inr h)
    · simp at h

theorem all_blocks {X Y : Type} (P : Problem X Y) (hP : P.residuals = []) (mw tw rw' : ℝ) (fm ft fr : X → Y → List (Fl ℝ)) (x : X) (y : Y) :
    (let P := if mw ≠ 0 then P.add fm else P
     let P := if tw ≠ 0 then P.add ft else P
     if rw' ≠ 0 then P.add fr else P).all x y = blocks mw tw rw' (fm x y) (ft x y) (fr x y) := by
  have all_add : ∀ (Q : Problem X Y) f, (Q.add f).all x y = Q.all x y ++ f x y := by
    intro Q f
    unfold Problem.all Problem.add
    simp
  have all_nil : P.all x y = [] := by unfold Problem.all; rw [hP]; rfl
  unfold blocks
  dsimp only
  split_ifs <;> simp [all_add, all_nil]

section maps
variable {D : Type}

/-- the `Jet` of one point of the scan: `CreateAutoDiffCostFunction` divides the weight by the square root of the number of points -/
noncomputable def pointJet {d : Nat} (mw : ℝ) (points : List (Fin d → ℝ)) (jet : Option (Jet n)) : Jet n := scanResidualJ (mw / √(points.length : ℝ)) (jet.getD (.const 0))

theorem scanBlock_map {d : Nat} {B : Backend d} (read : Option ℝ → Fl ℝ) (numeric : Bool) (mw : ℝ) (points : List (Pt ℝ d)) (g : Geo ℝ d) (dyn : Bool) (valid : D → Bool) (bell dens : D → Pt ℝ d → ℝ)
    (hd : ∀ s p, dens s p = if valid s then bell s p else 0) (st : St B D) (moved : (Fin d → ℝ) → Fin d → ℝ) :
    scanBlock numeric mw (mapTerm read points g dyn valid bell dens st) moved = points.map fun p => scanResidual (mw / √(points.length : ℝ)) (read (evaluateDouble g dyn dens st (moved p))) := by
  unfold scanBlock mapTerm createdResiduals scanResiduals
  simp only [C62_gridmap g dyn valid bell dens hd]
  cases numeric <;> rfl

theorem scan_residual (read : Option ℝ → Fl ℝ) (hread : ∀ v, read (some v) = .fin v) (w : ℝ) {double : (Fin n → ℝ) → Option ℝ} {x : Fin n → ℝ} {jet : Option (Jet n)} {border : Prop}
    (h : (double x = none ∧ jet = none) ∨ ∃ j, jet = some j ∧ Differentiated (fun y => (double y).map fun v => scanResidual w (.fin v)) x (scanResidualJ w j) ∧
      (border → Smooth (fun y => (double y).map fun v => scanResidual w (.fin v)) x (scanResidualJ w j))) (hb : border) (hs : double x ≠ none) :
    Residual x (fun y => scanResidual w (read (double y)), scanResidualJ w (jet.getD (.const 0))) := by
  rcases h with ⟨h, _⟩ | ⟨j, hj, h1, h2⟩
  · exact absurd h hs
  · rw [hj]
    refine residual_of_smooth ?_ h1 (h2 hb)
    intro y v hy
    obtain ⟨u, hu, hv⟩ := Option.map_eq_some_iff.1 hy
    rw [hu, hread, hv]

/-- **C102** (the whole problem, 2D). On an NDT map, for every scan whose points are stored and not on a border between bundles, and a rotation that is not opposite to the prior, the values and derivatives of automatic differentiation give the cost
of `Problem2d` and its gradient. Parameters: translation (0, 1) and rotation (2). -/
theorem C102_cost_2d {B : Backend 2} (g : Geo ℝ 2) {rot : Fin 2 → Fin 2 → ℝ} {trans : Fin 2 → ℝ} {valid : D → Bool} {mean : D → Fin 2 → ℝ} {inf : D → Fin 2 → Fin 2 → ℝ} {dens : D → Pt ℝ 2 → ℝ}
    (hg : Gaussian g rot trans valid mean inf dens) (dyn : Bool) (st : St B D) (tw rw' mw : ℝ) (prior : Fin 2 → ℝ) (priorR : ℝ) (numeric : Bool) (points : List (Fin 2 → ℝ)) (read : Option ℝ → Fl ℝ) (hread : ∀ v, read (some v) = .fin v)
    (x : Fin 3 → ℝ) (hs : mw ≠ 0 → ∀ p ∈ points, evaluateDouble g dyn dens st (moved2 ![x 0, x 1] (x 2) p) ≠ none)
    (hb : mw ≠ 0 → ∀ p ∈ points, ∀ a, ∀ k : ℤ, g.toMap (moved2 ![x 0, x 1] (x 2) p) a ≠ k * bundleResolution g.r) (ho : ¬SameAngle (x 2) (priorR + π)) :
    GradientOf (fun y => (problem2d tw rw' mw prior priorR numeric (mapTerm read points g dyn valid (fun s => bellOf (mean s) (inf s)) dens st)).cost ![y 0, y 1] ![y 2]) x
      (blocks mw tw rw' (points.map fun p => pointJet mw points (evaluateJ g.r rot trans dyn valid mean inf st (moved2J ![.var x 0, .var x 1] (.var x 2) p)))
        (List.ofFn (translationResidualJ tw prior ![.var x 0, .var x 1])) [rotationResidual2J rw' priorR (.var x 2)]) := by
  let w := mw / √(points.length : ℝ)
  let l : List (((Fin 3 → ℝ) → Fl ℝ) × Jet 3) := blocks mw tw rw'
    (points.map fun p => (fun y => scanResidual w (read (evaluateDouble g dyn dens st (moved2 ![y 0, y 1] (y 2) p))), pointJet mw points (evaluateJ g.r rot trans dyn valid mean inf st (moved2J ![.var x 0, .var x 1] (.var x 2) p))))
    (List.ofFn fun i => (fun y => .fin (translationResidual tw prior ![y 0, y 1] i), translationResidualJ tw prior ![.var x 0, .var x 1] i))
    [(fun y => .fin (rotationResidual2 rw' priorR (y 2)), rotationResidual2J rw' priorR (.var x 2))]
  have k := gradient_of_residuals (problem2d tw rw' mw prior priorR numeric (mapTerm read points g dyn valid (fun s => bellOf (mean s) (inf s)) dens st)) (fun y => ![y 0, y 1]) (fun y => ![y 2]) x l ?_ ?_
  · have e : l.map Prod.snd = blocks mw tw rw' (points.map fun p => pointJet mw points (evaluateJ g.r rot trans dyn valid mean inf st (moved2J ![.var x 0, .var x 1] (.var x 2) p)))
        (List.ofFn (translationResidualJ tw prior ![.var x 0, .var x 1])) [rotationResidual2J rw' priorR (.var x 2)] := by
      simp only [l]
      rw [blocks_map, List.map_map, List.map_ofFn]
      rfl
    rw [← e]
    exact k
  · intro e he
    rcases mem_blocks he with ⟨hm, he⟩ | he | he
    · obtain ⟨p, hp, rfl⟩ := List.mem_map.1 he
      exact scan_residual read hread w (C102_scan_2d g hg dyn st w p x) (hb hm p hp) (hs hm p hp)
    · obtain ⟨i, rfl⟩ := (List.mem_ofFn' _ _).1 he
      refine residual_of_tracks ?_
      refine ((?_ : Tracks x (fun y => ![y 0, y 1] i) _).sub (Tracks.const (prior i))).scale tw
      fin_cases i
      · exact Tracks.var 0
      · exact Tracks.var 1
    · obtain rfl := List.mem_singleton.1 he
      have h := rotation_differentiated rw' priorR 2 x
      exact residual_of_smooth (fun y v hy => Option.some.inj hy) h.1 (h.2 (not_opposite ho))
  · intro y
    refine (all_blocks ⟨euclidean 2, ⟨1, eulerPlus⟩, []⟩ rfl mw tw rw' _ _ _ ![y 0, y 1] ![y 2]).trans ?_
    simp only [l]
    rw [blocks_map, List.map_map, List.map_ofFn, scanBlock_map read numeric mw points g dyn valid (fun s => bellOf (mean s) (inf s)) dens (fun s p => hg.density s p), List.map_ofFn]
    rfl

/-- **C102** (the whole problem, 3D with Euler angles). The same; no angle may be opposite to its prior. Parameters: translation (0, 1, 2) and roll, pitch, yaw (3, 4, 5). -/
theorem C102_cost_rpy {B : Backend 3} (g : Geo ℝ 3) {rot : Fin 3 → Fin 3 → ℝ} {trans : Fin 3 → ℝ} {valid : D → Bool} {mean : D → Fin 3 → ℝ} {inf : D → Fin 3 → Fin 3 → ℝ} {dens : D → Pt ℝ 3 → ℝ}
    (hg : Gaussian g rot trans valid mean inf dens) (dyn : Bool) (st : St B D) (tw rw' mw : ℝ) (prior : Fin 3 → ℝ) (priorR : Fin 3 → ℝ) (onlyYaw numeric : Bool) (points : List (Fin 3 → ℝ)) (read : Option ℝ → Fl ℝ) (hread : ∀ v, read (some v) = .fin v)
    (x : Fin 6 → ℝ) (hs : mw ≠ 0 → ∀ p ∈ points, evaluateDouble g dyn dens st (movedRPY ![x 0, x 1, x 2] ![x 3, x 4, x 5] p) ≠ none)
    (hb : mw ≠ 0 → ∀ p ∈ points, ∀ a, ∀ k : ℤ, g.toMap (movedRPY ![x 0, x 1, x 2] ![x 3, x 4, x 5] p) a ≠ k * bundleResolution g.r) (ho : ∀ i, ¬SameAngle ((![x 3, x 4, x 5] : Fin 3 → ℝ) i) (priorR i + π)) :
    GradientOf (fun y => (problem3dRPY tw rw' mw prior priorR onlyYaw numeric (mapTerm read points g dyn valid (fun s => bellOf (mean s) (inf s)) dens st)).cost ![y 0, y 1, y 2] ![y 3, y 4, y 5]) x
      (blocks mw tw rw' (points.map fun p => pointJet mw points (evaluateJ g.r rot trans dyn valid mean inf st (movedRPYJ ![.var x 0, .var x 1, .var x 2] ![.var x 3, .var x 4, .var x 5] p)))
        (List.ofFn (translationResidualJ tw prior ![.var x 0, .var x 1, .var x 2])) (List.ofFn (rotationResidualRPYJ rw' priorR ![.var x 3, .var x 4, .var x 5]))) := by
  let w := mw / √(points.length : ℝ)
  let l : List (((Fin 6 → ℝ) → Fl ℝ) × Jet 6) := blocks mw tw rw'
    (points.map fun p => (fun y => scanResidual w (read (evaluateDouble g dyn dens st (movedRPY ![y 0, y 1, y 2] ![y 3, y 4, y 5] p))), pointJet mw points (evaluateJ g.r rot trans dyn valid mean inf st (movedRPYJ ![.var x 0, .var x 1, .var x 2] ![.var x 3, .var x 4, .var x 5] p))))
    (List.ofFn fun i => (fun y => .fin (translationResidual tw prior ![y 0, y 1, y 2] i), translationResidualJ tw prior ![.var x 0, .var x 1, .var x 2] i))
    (List.ofFn fun i => (fun y => .fin (rotationResidualRPY rw' priorR ![y 3, y 4, y 5] i), rotationResidualRPYJ rw' priorR ![.var x 3, .var x 4, .var x 5] i))
  have k := gradient_of_residuals (problem3dRPY tw rw' mw prior priorR onlyYaw numeric (mapTerm read points g dyn valid (fun s => bellOf (mean s) (inf s)) dens st)) (fun y => ![y 0, y 1, y 2]) (fun y => ![y 3, y 4, y 5]) x l ?_ ?_
  · have e : l.map Prod.snd = blocks mw tw rw' (points.map fun p => pointJet mw points (evaluateJ g.r rot trans dyn valid mean inf st (movedRPYJ ![.var x 0, .var x 1, .var x 2] ![.var x 3, .var x 4, .var x 5] p)))
        (List.ofFn (translationResidualJ tw prior ![.var x 0, .var x 1, .var x 2])) (List.ofFn (rotationResidualRPYJ rw' priorR ![.var x 3, .var x 4, .var x 5])) := by
      simp only [l]
      rw [blocks_map, List.map_map, List.map_ofFn, List.map_ofFn]
      rfl
    rw [← e]
    exact k
  · intro e he
    rcases mem_blocks he with ⟨hm, he⟩ | he | he
    · obtain ⟨p, hp, rfl⟩ := List.mem_map.1 he
      exact scan_residual read hread w (C102_scan_rpy g hg dyn st w p x) (hb hm p hp) (hs hm p hp)
    · obtain ⟨i, rfl⟩ := (List.mem_ofFn' _ _).1 he
      exact residual_of_tracks (((vector_tracks 0 1 2 i).sub (Tracks.const (prior i))).scale tw)
    · obtain ⟨i, rfl⟩ := (List.mem_ofFn' _ _).1 he
      have h : ∀ (a : ℝ) (b : Fin 6), ¬SameAngle (x b) (a + π) → Residual x (fun y => .fin (rw' * angleDifference a (y b)), (angleDifferenceJ (.const a) (.var x b)).scale rw') := by
        intro a b hne
        have h := rotation_differentiated rw' a b x
        exact residual_of_smooth (fun y v hy => Option.some.inj hy) h.1 (h.2 (not_opposite hne))
      have ho := ho i
      fin_cases i
      · exact h _ 3 ho
      · exact h _ 4 ho
      · exact h _ 5 ho
  · intro y
    refine (all_blocks ⟨if onlyYaw then subset2 else euclidean 3, if onlyYaw then ⟨1, fun x delta => yawOnlyEulerPlus x (delta 0)⟩ else ⟨3, eulerPlus⟩, []⟩ rfl mw tw rw' _ _ _ ![y 0, y 1, y 2] ![y 3, y 4, y 5]).trans ?_
    simp only [l]
    rw [blocks_map, List.map_map, List.map_ofFn, List.map_ofFn, scanBlock_map read numeric mw points g dyn valid (fun s => bellOf (mean s) (inf s)) dens (fun s p => hg.density s p), List.map_ofFn, List.map_ofFn]
    rfl

/-- **C102** (the whole problem, 3D with quaternions). The same; the rotation prior is differentiable everywhere. Parameters: translation (0, 1, 2) and the quaternion in the order w, x, y, z (3, 4, 5, 6). -/
theorem C102_cost_quaternion {B : Backend 3} (g : Geo ℝ 3) {rot : Fin 3 → Fin 3 → ℝ} {trans : Fin 3 → ℝ} {valid : D → Bool} {mean : D → Fin 3 → ℝ} {inf : D → Fin 3 → Fin 3 → ℝ} {dens : D → Pt ℝ 3 → ℝ}
    (hg : Gaussian g rot trans valid mean inf dens) (dyn : Bool) (st : St B D) (tw rw' mw : ℝ) (prior : Fin 3 → ℝ) (priorR : Quat) (onlyYaw numeric : Bool) (points : List (Fin 3 → ℝ)) (read : Option ℝ → Fl ℝ) (hread : ∀ v, read (some v) = .fin v)
    (x : Fin 7 → ℝ) (hs : mw ≠ 0 → ∀ p ∈ points, evaluateDouble g dyn dens st (moved3 ![x 0, x 1, x 2] ⟨x 3, x 4, x 5, x 6⟩ p) ≠ none)
    (hb : mw ≠ 0 → ∀ p ∈ points, ∀ a, ∀ k : ℤ, g.toMap (moved3 ![x 0, x 1, x 2] ⟨x 3, x 4, x 5, x 6⟩ p) a ≠ k * bundleResolution g.r) :
    GradientOf (fun y => (problem3dQuaternion tw rw' mw prior priorR onlyYaw numeric (mapTerm read points g dyn valid (fun s => bellOf (mean s) (inf s)) dens st)).cost ![y 0, y 1, y 2] ⟨y 3, y 4, y 5, y 6⟩) x
      (blocks mw tw rw' (points.map fun p => pointJet mw points (evaluateJ g.r rot trans dyn valid mean inf st (moved3J ![.var x 0, .var x 1, .var x 2] ⟨.var x 3, .var x 4, .var x 5, .var x 6⟩ p)))
        (List.ofFn (translationResidualJ tw prior ![.var x 0, .var x 1, .var x 2])) (List.ofFn (rotationResidualQuatJ rw' priorR ⟨.var x 3, .var x 4, .var x 5, .var x 6⟩))) := by
  let w := mw / √(points.length : ℝ)
  let l : List (((Fin 7 → ℝ) → Fl ℝ) × Jet 7) := blocks mw tw rw'
    (points.map fun p => (fun y => scanResidual w (read (evaluateDouble g dyn dens st (moved3 ![y 0, y 1, y 2] ⟨y 3, y 4, y 5, y 6⟩ p))), pointJet mw points (evaluateJ g.r rot trans dyn valid mean inf st (moved3J ![.var x 0, .var x 1, .var x 2] ⟨.var x 3, .var x 4, .var x 5, .var x 6⟩ p))))
    (List.ofFn fun i => (fun y => .fin (translationResidual tw prior ![y 0, y 1, y 2] i), translationResidualJ tw prior ![.var x 0, .var x 1, .var x 2] i))
    (List.ofFn fun i => (fun y => .fin (rotationResidualQuat rw' priorR ⟨y 3, y 4, y 5, y 6⟩ i), rotationResidualQuatJ rw' priorR ⟨.var x 3, .var x 4, .var x 5, .var x 6⟩ i))
  have k := gradient_of_residuals (problem3dQuaternion tw rw' mw prior priorR onlyYaw numeric (mapTerm read points g dyn valid (fun s => bellOf (mean s) (inf s)) dens st)) (fun y => ![y 0, y 1, y 2]) (fun y => ⟨y 3, y 4, y 5, y 6⟩) x l ?_ ?_
  · have e : l.map Prod.snd = blocks mw tw rw' (points.map fun p => pointJet mw points (evaluateJ g.r rot trans dyn valid mean inf st (moved3J ![.var x 0, .var x 1, .var x 2] ⟨.var x 3, .var x 4, .var x 5, .var x 6⟩ p)))
        (List.ofFn (translationResidualJ tw prior ![.var x 0, .var x 1, .var x 2])) (List.ofFn (rotationResidualQuatJ rw' priorR ⟨.var x 3, .var x 4, .var x 5, .var x 6⟩)) := by
      simp only [l]
      rw [blocks_map, List.map_map, List.map_ofFn, List.map_ofFn]
      rfl
    rw [← e]
    exact k
  · intro e he
    rcases mem_blocks he with ⟨hm, he⟩ | he | he
    · obtain ⟨p, hp, rfl⟩ := List.mem_map.1 he
      exact scan_residual read hread w (C102_scan_quaternion g hg dyn st w p x) (hb hm p hp) (hs hm p hp)
    · obtain ⟨i, rfl⟩ := (List.mem_ofFn' _ _).1 he
      exact residual_of_tracks (((vector_tracks 0 1 2 i).sub (Tracks.const (prior i))).scale tw)
    · obtain ⟨i, rfl⟩ := (List.mem_ofFn' _ _).1 he
      have h := mul_tracks (constQ_tracks x priorR.inv) (quat_tracks x)
      fin_cases i
      · exact residual_of_tracks (h.w.scale rw')
      · exact residual_of_tracks (h.x.scale rw')
      · exact residual_of_tracks (h.y.scale rw')
      · exact residual_of_tracks (h.z.scale rw')
  · intro y
    refine (all_blocks ⟨if onlyYaw then subset2 else euclidean 3, if onlyYaw then ⟨1, fun x delta => yawOnlyQuatPlus x (delta 0)⟩ else ⟨3, quatPlus⟩, []⟩ rfl mw tw rw' _ _ _ ![y 0, y 1, y 2] ⟨y 3, y 4, y 5, y 6⟩).trans ?_
    simp only [l]
    rw [blocks_map, List.map_map, List.map_ofFn, List.map_ofFn, scanBlock_map read numeric mw points g dyn valid (fun s => bellOf (mean s) (inf s)) dens (fun s p => hg.density s p), List.map_ofFn, List.map_ofFn]
    rfl

variable {W E M : Type}

theorem scanBlock_occMap {d : Nat} {B : Backend d} (read : Except String (Option ℝ) → Fl ℝ) (numeric : Bool) (mw : ℝ) (points : List (Pt ℝ d)) (g : Geo ℝ d) (dyn : Bool) (valid : Multiset E → Bool) (bell dens : Multiset E → Pt ℝ d → ℝ)
    (hd : ∀ s p, dens s p = if valid s then bell s p else 0) (occ : M → Occ W E → ℝ) (m : M) (st : St B (Occ W E)) (moved : (Fin d → ℝ) → Fin d → ℝ) :
    scanBlock numeric mw (occMapTerm read points g dyn valid bell dens occ (some m) st) moved =
      points.map fun p => scanResidual (mw / √(points.length : ℝ)) (read (occEvaluateDouble g dyn dens occ (some m) st (moved p))) := by
  unfold scanBlock occMapTerm createdResiduals scanResiduals
  simp only [C62_occupancy g dyn valid bell dens hd]
  cases numeric <;> rfl

theorem scan_residual_occ (read : Except String (Option ℝ) → Fl ℝ) (hread : ∀ v, read (.ok (some v)) = .fin v) (w : ℝ) {double : (Fin n → ℝ) → Except String (Option ℝ)} {x : Fin n → ℝ} {jet : Option (Jet n)} {border : Prop}
    (h : (double x = .ok none ∧ jet = none) ∨ ∃ j, jet = some j ∧ Differentiated (fun y => (okValue (double y)).map fun v => scanResidual w (.fin v)) x (scanResidualJ w j) ∧
      (border → Smooth (fun y => (okValue (double y)).map fun v => scanResidual w (.fin v)) x (scanResidualJ w j))) (hb : border) (hs : double x ≠ .ok none) :
    Residual x (fun y => scanResidual w (read (double y)), scanResidualJ w (jet.getD (.const 0))) := by
  rcases h with ⟨h, _⟩ | ⟨j, hj, h1, h2⟩
  · exact absurd h hs
  · rw [hj]
    refine residual_of_smooth ?_ h1 (h2 hb)
    intro y v hy
    obtain ⟨u, hu, hv⟩ := Option.map_eq_some_iff.1 hy
    have e : double y = .ok (some u) := by
      cases hd : double y with
      | error e => rw [hd] at hu; cases hu
      | ok o => rw [hd] at hu; exact congrArg Except.ok hu
    rw [e, hread, hv]

/-- **C102** (the whole problem on occupancy maps, 2D). On a (weighted) occupancy map, for every scan whose points are stored and not on a border between bundles, and a rotation that is not opposite to the prior, the values and derivatives of automatic differentiation give the cost
of `Problem2d` and its gradient. Parameters: translation (0, 1) and rotation (2). -/
theorem C102_cost_occupancy_2d {B : Backend 2} (g : Geo ℝ 2) {rot : Fin 2 → Fin 2 → ℝ} {trans : Fin 2 → ℝ} {valid : Multiset E → Bool} {mean : Multiset E → Fin 2 → ℝ} {inf : Multiset E → Fin 2 → Fin 2 → ℝ} {dens : Multiset E → Pt ℝ 2 → ℝ}
    (hg : Gaussian g rot trans valid mean inf dens) (occ : M → Occ W E → ℝ) (m : M) (hocc : ∀ o, occ m o ≤ 1) (dyn : Bool) (st : St B (Occ W E)) (tw rw' mw : ℝ) (prior : Fin 2 → ℝ) (priorR : ℝ) (numeric : Bool) (points : List (Fin 2 → ℝ)) (read : Except String (Option ℝ) → Fl ℝ) (hread : ∀ v, read (.ok (some v)) = .fin v)
    (x : Fin 3 → ℝ) (hs : mw ≠ 0 → ∀ p ∈ points, occEvaluateDouble g dyn dens occ (some m) st (moved2 ![x 0, x 1] (x 2) p) ≠ .ok none)
    (hb : mw ≠ 0 → ∀ p ∈ points, ∀ a, ∀ k : ℤ, g.toMap (moved2 ![x 0, x 1] (x 2) p) a ≠ k * bundleResolution g.r) (ho : ¬SameAngle (x 2) (priorR + π)) :
    GradientOf (fun y => (problem2d tw rw' mw prior priorR numeric (occMapTerm read points g dyn valid (fun s => bellOf (mean s) (inf s)) dens occ (some m) st)).cost ![y 0, y 1] ![y 2]) x
      (blocks mw tw rw' (points.map fun p => pointJet mw points (occEvaluateJ g.r rot trans dyn valid mean inf (occ m) st (moved2J ![.var x 0, .var x 1] (.var x 2) p)))
        (List.ofFn (translationResidualJ tw prior ![.var x 0, .var x 1])) [rotationResidual2J rw' priorR (.var x 2)]) := by
  let w := mw / √(points.length : ℝ)
  let l : List (((Fin 3 → ℝ) → Fl ℝ) × Jet 3) := blocks mw tw rw'
    (points.map fun p => (fun y => scanResidual w (read (occEvaluateDouble g dyn dens occ (some m) st (moved2 ![y 0, y 1] (y 2) p))), pointJet mw points (occEvaluateJ g.r rot trans dyn valid mean inf (occ m) st (moved2J ![.var x 0, .var x 1] (.var x 2) p))))
    (List.ofFn fun i => (fun y => .fin (translationResidual tw prior ![y 0, y 1] i), translationResidualJ tw prior ![.var x 0, .var x 1] i))
    [(fun y => .fin (rotationResidual2 rw' priorR (y 2)), rotationResidual2J rw' priorR (.var x 2))]
  have k := gradient_of_residuals (problem2d tw rw' mw prior priorR numeric (occMapTerm read points g dyn valid (fun s => bellOf (mean s) (inf s)) dens occ (some m) st)) (fun y => ![y 0, y 1]) (fun y => ![y 2]) x l ?_ ?_
  · have e : l.map Prod.snd = blocks mw tw rw' (points.map fun p => pointJet mw points (occEvaluateJ g.r rot trans dyn valid mean inf (occ m) st (moved2J ![.var x 0, .var x 1] (.var x 2) p)))
        (List.ofFn (translationResidualJ tw prior ![.var x 0, .var x 1])) [rotationResidual2J rw' priorR (.var x 2)] := by
      simp only [l]
      rw [blocks_map, List.map_map, List.map_ofFn]
      rfl
    rw [← e]
    exact k
  · intro e he
    rcases mem_blocks he with ⟨hm, he⟩ | he | he
    · obtain ⟨p, hp, rfl⟩ := List.mem_map.1 he
      exact scan_residual_occ read hread w (C102_scan_occupancy_2d g hg occ m hocc dyn st w p x) (hb hm p hp) (hs hm p hp)
    · obtain ⟨i, rfl⟩ := (List.mem_ofFn' _ _).1 he
      refine residual_of_tracks ?_
      refine ((?_ : Tracks x (fun y => ![y 0, y 1] i) _).sub (Tracks.const (prior i))).scale tw
      fin_cases i
      · exact Tracks.var 0
      · exact Tracks.var 1
    · obtain rfl := List.mem_singleton.1 he
      have h := rotation_differentiated rw' priorR 2 x
      exact residual_of_smooth (fun y v hy => Option.some.inj hy) h.1 (h.2 (not_opposite ho))
  · intro y
    refine (all_blocks ⟨euclidean 2, ⟨1, eulerPlus⟩, []⟩ rfl mw tw rw' _ _ _ ![y 0, y 1] ![y 2]).trans ?_
    simp only [l]
    rw [blocks_map, List.map_map, List.map_ofFn, scanBlock_occMap read numeric mw points g dyn valid (fun s => bellOf (mean s) (inf s)) dens (fun s p => hg.density s p) occ m, List.map_ofFn]
    rfl

/-- **C102** (the whole problem on occupancy maps, 3D with Euler angles). The same; no angle may be opposite to its prior. Parameters: translation (0, 1, 2) and roll, pitch, yaw (3, 4, 5). -/
theorem C102_cost_occupancy_rpy {B : Backend 3} (g : Geo ℝ 3) {rot : Fin 3 → Fin 3 → ℝ} {trans : Fin 3 → ℝ} {valid : Multiset E → Bool} {mean : Multiset E → Fin 3 → ℝ} {inf : Multiset E → Fin 3 → Fin 3 → ℝ} {dens : Multiset E → Pt ℝ 3 → ℝ}
    (hg : Gaussian g rot trans valid mean inf dens) (occ : M → Occ W E → ℝ) (m : M) (hocc : ∀ o, occ m o ≤ 1) (dyn : Bool) (st : St B (Occ W E)) (tw rw' mw : ℝ) (prior : Fin 3 → ℝ) (priorR : Fin 3 → ℝ) (onlyYaw numeric : Bool) (points : List (Fin 3 → ℝ)) (read : Except String (Option ℝ) → Fl ℝ) (hread : ∀ v, read (.ok (some v)) = .fin v)
    (x : Fin 6 → ℝ) (hs : mw ≠ 0 → ∀ p ∈ points, occEvaluateDouble g dyn dens occ (some m) st (movedRPY ![x 0, x 1, x 2] ![x 3, x 4, x 5] p) ≠ .ok none)
    (hb : mw ≠ 0 → ∀ p ∈ points, ∀ a, ∀ k : ℤ, g.toMap (movedRPY ![x 0, x 1, x 2] ![x 3, x 4, x 5] p) a ≠ k * bundleResolution g.r) (ho : ∀ i, ¬SameAngle ((![x 3, x 4, x 5] : Fin 3 → ℝ) i) (priorR i + π)) :
    GradientOf (fun y => (problem3dRPY tw rw' mw prior priorR onlyYaw numeric (occMapTerm read points g dyn valid (fun s => bellOf (mean s) (inf s)) dens occ (some m) st)).cost ![y 0, y 1, y 2] ![y 3, y 4, y 5]) x
      (blocks mw tw rw' (points.map fun p => pointJet mw points (occEvaluateJ g.r rot trans dyn valid mean inf (occ m) st (movedRPYJ ![.var x 0, .var x 1, .var x 2] ![.var x 3, .var x 4, .var x 5] p)))
        (List.ofFn (translationResidualJ tw prior ![.var x 0, .var x 1, .var x 2])) (List.ofFn (rotationResidualRPYJ rw' priorR ![.var x 3, .var x 4, .var x 5]))) := by
  let w := mw / √(points.length : ℝ)
  let l : List (((Fin 6 → ℝ) → Fl ℝ) × Jet 6) := blocks mw tw rw'
    (points.map fun p => (fun y => scanResidual w (read (occEvaluateDouble g dyn dens occ (some m) st (movedRPY ![y 0, y 1, y 2] ![y 3, y 4, y 5] p))), pointJet mw points (occEvaluateJ g.r rot trans dyn valid mean inf (occ m) st (movedRPYJ ![.var x 0, .var x 1, .var x 2] ![.var x 3, .var x 4, .var x 5] p))))
    (List.ofFn fun i => (fun y => .fin (translationResidual tw prior ![y 0, y 1, y 2] i), translationResidualJ tw prior ![.var x 0, .var x 1, .var x 2] i))
    (List.ofFn fun i => (fun y => .fin (rotationResidualRPY rw' priorR ![y 3, y 4, y 5] i), rotationResidualRPYJ rw' priorR ![.var x 3, .var x 4, .var x 5] i))
  have k := gradient_of_residuals (problem3dRPY tw rw' mw prior priorR onlyYaw numeric (occMapTerm read points g dyn valid (fun s => bellOf (mean s) (inf s)) dens occ (some m) st)) (fun y => ![y 0, y 1, y 2]) (fun y => ![y 3, y 4, y 5]) x l ?_ ?_
  · have e : l.map Prod.snd = blocks mw tw rw' (points.map fun p => pointJet mw points (occEvaluateJ g.r rot trans dyn valid mean inf (occ m) st (movedRPYJ ![.var x 0, .var x 1, .var x 2] ![.var x 3, .var x 4, .var x 5] p)))
        (List.ofFn (translationResidualJ tw prior ![.var x 0, .var x 1, .var x 2])) (List.ofFn (rotationResidualRPYJ rw' priorR ![.var x 3, .var x 4, .var x 5])) := by
      simp only [l]
      rw [blocks_map, List.map_map, List.map_ofFn, List.map_ofFn]
      rfl
    rw [← e]
    exact k
  · intro e he
    rcases mem_blocks he with ⟨hm, he⟩ | he | he
    · obtain ⟨p, hp, rfl⟩ := List.mem_map.1 he
      exact scan_residual_occ read hread w (C102_scan_occupancy_rpy g hg occ m hocc dyn st w p x) (hb hm p hp) (hs hm p hp)
    · obtain ⟨i, rfl⟩ := (List.mem_ofFn' _ _).1 he
      exact residual_of_tracks (((vector_tracks 0 1 2 i).sub (Tracks.const (prior i))).scale tw)
    · obtain ⟨i, rfl⟩ := (List.mem_ofFn' _ _).1 he
      have h : ∀ (a : ℝ) (b : Fin 6), ¬SameAngle (x b) (a + π) → Residual x (fun y => .fin (rw' * angleDifference a (y b)), (angleDifferenceJ (.const a) (.var x b)).scale rw') := by
        intro a b hne
        have h := rotation_differentiated rw' a b x
        exact residual_of_smooth (fun y v hy => Option.some.inj hy) h.1 (h.2 (not_opposite hne))
      have ho := ho i
      fin_cases i
      · exact h _ 3 ho
      · exact h _ 4 ho
      · exact h _ 5 ho
  · intro y
    refine (all_blocks ⟨if onlyYaw then subset2 else euclidean 3, if onlyYaw then ⟨1, fun x delta => yawOnlyEulerPlus x (delta 0)⟩ else ⟨3, eulerPlus⟩, []⟩ rfl mw tw rw' _ _ _ ![y 0, y 1, y 2] ![y 3, y 4, y 5]).trans ?_
    simp only [l]
    rw [blocks_map, List.map_map, List.map_ofFn, List.map_ofFn, scanBlock_occMap read numeric mw points g dyn valid (fun s => bellOf (mean s) (inf s)) dens (fun s p => hg.density s p) occ m, List.map_ofFn, List.map_ofFn]
    rfl

/-- **C102** (the whole problem on occupancy maps, 3D with quaternions). The same; the rotation prior is differentiable everywhere. Parameters: translation (0, 1, 2) and the quaternion in the order w, x, y, z (3, 4, 5, 6). -/
theorem C102_cost_occupancy_quaternion {B : Backend 3} (g : Geo ℝ 3) {rot : Fin 3 → Fin 3 → ℝ} {trans : Fin 3 → ℝ} {valid : Multiset E → Bool} {mean : Multiset E → Fin 3 → ℝ} {inf : Multiset E → Fin 3 → Fin 3 → ℝ} {dens : Multiset E → Pt ℝ 3 → ℝ}
    (hg : Gaussian g rot trans valid mean inf dens) (occ : M → Occ W E → ℝ) (m : M) (hocc : ∀ o, occ m o ≤ 1) (dyn : Bool) (st : St B (Occ W E)) (tw rw' mw : ℝ) (prior : Fin 3 → ℝ) (priorR : Quat) (onlyYaw numeric : Bool) (points : List (Fin 3 → ℝ)) (read : Except String (Option ℝ) → Fl ℝ) (hread : ∀ v, read (.ok (some v)) = .fin v)
    (x : Fin 7 → ℝ) (hs : mw ≠ 0 → ∀ p ∈ points, occEvaluateDouble g dyn dens occ (some m) st (moved3 ![x 0, x 1, x 2] ⟨x 3, x 4, x 5, x 6⟩ p) ≠ .ok none)
    (hb : mw ≠ 0 → ∀ p ∈ points, ∀ a, ∀ k : ℤ, g.toMap (moved3 ![x 0, x 1, x 2] ⟨x 3, x 4, x 5, x 6⟩ p) a ≠ k * bundleResolution g.r) :
    GradientOf (fun y => (problem3dQuaternion tw rw' mw prior priorR onlyYaw numeric (occMapTerm read points g dyn valid (fun s => bellOf (mean s) (inf s)) dens occ (some m) st)).cost ![y 0, y 1, y 2] ⟨y 3, y 4, y 5, y 6⟩) x
      (blocks mw tw rw' (points.map fun p => pointJet mw points (occEvaluateJ g.r rot trans dyn valid mean inf (occ m) st (moved3J ![.var x 0, .var x 1, .var x 2] ⟨.var x 3, .var x 4, .var x 5, .var x 6⟩ p)))
        (List.ofFn (translationResidualJ tw prior ![.var x 0, .var x 1, .var x 2])) (List.ofFn (rotationResidualQuatJ rw' priorR ⟨.var x 3, .var x 4, .var x 5, .var x 6⟩))) := by
  let w := mw / √(points.length : ℝ)
  let l : List (((Fin 7 → ℝ) → Fl ℝ) × Jet 7) := blocks mw tw rw'
    (points.map fun p => (fun y => scanResidual w (read (occEvaluateDouble g dyn dens occ (some m) st (moved3 ![y 0, y 1, y 2] ⟨y 3, y 4, y 5, y 6⟩ p))), pointJet mw points (occEvaluateJ g.r rot trans dyn valid mean inf (occ m) st (moved3J ![.var x 0, .var x 1, .var x 2] ⟨.var x 3, .var x 4, .var x 5, .var x 6⟩ p))))
    (List.ofFn fun i => (fun y => .fin (translationResidual tw prior ![y 0, y 1, y 2] i), translationResidualJ tw prior ![.var x 0, .var x 1, .var x 2] i))
    (List.ofFn fun i => (fun y => .fin (rotationResidualQuat rw' priorR ⟨y 3, y 4, y 5, y 6⟩ i), rotationResidualQuatJ rw' priorR ⟨.var x 3, .var x 4, .var x 5, .var x 6⟩ i))
  have k := gradient_of_residuals (problem3dQuaternion tw rw' mw prior priorR onlyYaw numeric (occMapTerm read points g dyn valid (fun s => bellOf (mean s) (inf s)) dens occ (some m) st)) (fun y => ![y 0, y 1, y 2]) (fun y => ⟨y 3, y 4, y 5, y 6⟩) x l ?_ ?_
  · have e : l.map Prod.snd = blocks mw tw rw' (points.map fun p => pointJet mw points (occEvaluateJ g.r rot trans dyn valid mean inf (occ m) st (moved3J ![.var x 0, .var x 1, .var x 2] ⟨.var x 3, .var x 4, .var x 5, .var x 6⟩ p)))
        (List.ofFn (translationResidualJ tw prior ![.var x 0, .var x 1, .var x 2])) (List.ofFn (rotationResidualQuatJ rw' priorR ⟨.var x 3, .var x 4, .var x 5, .var x 6⟩)) := by
      simp only [l]
      rw [blocks_map, List.map_map, List.map_ofFn, List.map_ofFn]
      rfl
    rw [← e]
    exact k
  · intro e he
    rcases mem_blocks he with ⟨hm, he⟩ | he | he
    · obtain ⟨p, hp, rfl⟩ := List.mem_map.1 he
      exact scan_residual_occ read hread w (C102_scan_occupancy_quaternion g hg occ m hocc dyn st w p x) (hb hm p hp) (hs hm p hp)
    · obtain ⟨i, rfl⟩ := (List.mem_ofFn' _ _).1 he
      exact residual_of_tracks (((vector_tracks 0 1 2 i).sub (Tracks.const (prior i))).scale tw)
    · obtain ⟨i, rfl⟩ := (List.mem_ofFn' _ _).1 he
      have h := mul_tracks (constQ_tracks x priorR.inv) (quat_tracks x)
      fin_cases i
      · exact residual_of_tracks (h.w.scale rw')
      · exact residual_of_tracks (h.x.scale rw')
      · exact residual_of_tracks (h.y.scale rw')
      · exact residual_of_tracks (h.z.scale rw')
  · intro y
    refine (all_blocks ⟨if onlyYaw then subset2 else euclidean 3, if onlyYaw then ⟨1, fun x delta => yawOnlyQuatPlus x (delta 0)⟩ else ⟨3, quatPlus⟩, []⟩ rfl mw tw rw' _ _ _ ![y 0, y 1, y 2] ⟨y 3, y 4, y 5, y 6⟩).trans ?_
    simp only [l]
    rw [blocks_map, List.map_map, List.map_ofFn, List.map_ofFn, scanBlock_occMap read numeric mw points g dyn valid (fun s => bellOf (mean s) (inf s)) dens (fun s p => hg.density s p) occ m, List.map_ofFn, List.map_ofFn]
    rfl

end maps

/-- a map, a scan of one point between the borders of the bundles and a prior on the left: the hypotheses hold, and the gradient of the translation prior is not 0 -/
example : ∃ (g : Geo ℝ 2) (valid : Multiset (Pt ℝ 2) → Bool) (mean : Multiset (Pt ℝ 2) → Fin 2 → ℝ) (inf : Multiset (Pt ℝ 2) → Fin 2 → Fin 2 → ℝ) (dens : Multiset (Pt ℝ 2) → Pt ℝ 2 → ℝ) (x : Fin 3 → ℝ) (p : Fin 2 → ℝ),
    Gaussian g ![![1, 0], ![0, 1]] ![0, 0] valid mean inf dens ∧ evaluateDouble g (Kind.dynamic (d := 2) (fun _ => 0) 0).dyn dens ((Kind.dynamic (d := 2) (fun _ => 0) 0).init _) (moved2 ![x 0, x 1] (x 2) p) ≠ none ∧
    (∀ a, ∀ k : ℤ, g.toMap (moved2 ![x 0, x 1] (x 2) p) a ≠ k * bundleResolution g.r) ∧ ¬SameAngle (x 2) (0 + π) ∧
    (translationResidualJ 2 ![0, 0] ![Jet.var x 0, Jet.var x 1] 0).a * (translationResidualJ 2 ![0, 0] ![Jet.var x 0, Jet.var x 1] 0).v 0 = 1 := by
  refine ⟨⟨1, fun q => q, fun _ => true⟩, fun s => decide (3 ≤ s.card), fun s => s.sum, fun _ => ![![2, 0], ![0, 2]],
    fun s p => if decide (3 ≤ s.card) then Real.exp (-(1 / 2) * ∑ i, ∑ k, (p i - s.sum i) * (![![2, 0], ![0, 2]] : Fin 2 → Fin 2 → ℝ) i k * (p k - s.sum k)) else 0, ![1 / 4, 1 / 4, 0], ![0, 0], ⟨by norm_num, ?_, ?_, fun s p => rfl, ?_⟩, ?_, ?_, ?_, ?_⟩
  · intro q a; fin_cases a <;> simp [Fin.sum_univ_two]
  · intro w
    exact ⟨w, fun a => by fin_cases a <;> simp [Fin.sum_univ_two]⟩
  · intro s _ u
    simp [Fin.sum_univ_two]
    nlinarith [mul_self_nonneg (u 0), mul_self_nonneg (u 1)]
  · have e : toBundleIndex (1 : ℝ) (moved2 ![4⁻¹, 4⁻¹] 0 ![0, 0]) = fun _ => 0 := by
      ext a
      fin_cases a <;> simp [toBundleIndex, moved2, bundleResolutionInv, bundleResolution] <;> norm_num
    have hr : InRange (fun _ : Fin 2 => (0 : ℤ)) := by simp [InRange]
    have hn : Octree.Tree.get (dynInit 2 (Multiset (Pt ℝ 2)) (fun _ => 0) 0).bundles (fun _ => (0 : ℤ)) = none := rfl
    simp [evaluateDouble, St.sampleNNAt, St.sampleNN, St.sampleWith, Kind.dyn, Kind.init, e, hr, hn, St.valid]
  · intro a k h
    have e : moved2 ![(![1 / 4, 1 / 4, 0] : Fin 3 → ℝ) 0, (![1 / 4, 1 / 4, 0] : Fin 3 → ℝ) 1] ((![1 / 4, 1 / 4, 0] : Fin 3 → ℝ) 2) ![0, 0] a = 1 / 4 := by
      fin_cases a <;> simp [moved2]
    simp only at h
    rw [e] at h
    have e2 : bundleResolution (1 : ℝ) = 1 / 2 := by simp [bundleResolution]
    rw [e2] at h
    have h2 : ((2 * k : ℤ) : ℝ) = (1 : ℤ) := by push_cast; linarith
    have h3 : 2 * k = 1 := by exact_mod_cast h2
    omega
  · rintro ⟨k, hk⟩
    have h1 : π * ((2 * k + 1 : ℤ) : ℝ) = 0 := by
      have e : (![1 / 4, 1 / 4, 0] : Fin 3 → ℝ) 2 = 0 := rfl
      rw [e] at hk
      push_cast
      linear_combination -hk
    rcases mul_eq_zero.1 h1 with h | h
    · exact pi_ne_zero h
    · have : 2 * k + 1 = 0 := by exact_mod_cast h
      omega
  · simp [translationResidualJ, Jet.scale, Jet.var]
    show 2 * ((4 : ℝ)⁻¹ - 0) * (2 * (1 - 0)) = 1
    norm_num

end Ndt
