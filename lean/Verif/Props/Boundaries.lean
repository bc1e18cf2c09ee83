import Verif.Props.Problem
import Verif.Model.Accessors
import Verif.Model.RasterRounded
import Verif.Model.Mono
import Verif.Model.Convert

/-! The exact range of `int` arithmetic on bounds (C52, C53, C72) and the effect of solver steps on the translation (C74). -/

namespace Ndt

open Matching

/-- the values of a 32-bit `int` -/
def Spec.IsInt (n : Int) : Prop := -2 ^ 31 ≤ n ∧ n < 2 ^ 31

open Spec

theorem intSub_spec (x y n : Int) : intSub x y = some n ↔ IsInt (x - y) ∧ n = x - y := by
  unfold intSub IsInt
  split_ifs with h
  · rw [Option.some.injEq, eq_comm]
    constructor
    · intro e; exact ⟨by omega, e⟩
    · exact fun e => e.2
  · simp only [reduceCtorEq, false_iff]
    intro e
    omega

/-- **C52** (exact range). Saving a dynamic map is defined exactly for the maps whose extent, `max - min`, is an `int` in every dimension. -/
theorem C52_defined_iff {d : Nat} {K P D : Type} (m : MapObj (octreeBackend d) K P D) : (dynHeader m).isSome = true ↔ ∀ a, IsInt (m.st.maxB a - m.st.minB a) := by
  have e : (∀ a, (intSub (m.st.maxB a) (m.st.minB a)).isSome = true) ↔ ∀ a, IsInt (m.st.maxB a - m.st.minB a) := by
    refine forall_congr' fun a => ?_
    rw [Option.isSome_iff_exists]
    simp only [intSub_spec]
    exact ⟨fun ⟨_, h, _⟩ => h, fun h => ⟨_, h, rfl⟩⟩
  unfold dynHeader
  split_ifs with h
  · simpa using e.1 h
  · simpa using fun h' => h (e.2 h')

namespace St

theorem count_spec {α : Type} (x y : Int) (f : Int → α) (v : α) :
    (match intSub x y with | none => none | some n => if n + 1 ≤ 2147483647 then some (f (n + 1)) else none) = some v ↔ IsInt (x - y) ∧ IsInt (x - y + 1) ∧ v = f (x - y + 1) := by
  cases h : intSub x y with
  | none =>
    have : ¬ IsInt (x - y) := fun h' => by simp [(intSub_spec x y (x - y)).2 ⟨h', rfl⟩] at h
    simp [this]
  | some n =>
    obtain ⟨h1, rfl⟩ := (intSub_spec x y n).1 h
    unfold IsInt at h1 ⊢
    dsimp only
    split_ifs with h2
    · rw [Option.some.injEq, eq_comm]
      exact ⟨fun e => ⟨h1, ⟨by omega, by omega⟩, e⟩, fun e => e.2.2⟩
    · simp only [reduceCtorEq, false_iff]
      rintro ⟨_, h3, _⟩
      omega

/-- **C72** (exact range). The number of bundles along an axis, on which `getWidth()`, `getHeight()` and `getSizeM()` are based, is defined exactly if `max - min` and `max - min + 1` are `int`s, and is then `max - min + 1`. -/
theorem C72_count_iff {d : Nat} {B : Backend d} {D : Type} (st : St B D) (a : Fin d) (n : Int) :
    st.bundleCount a = some n ↔ IsInt (st.maxB a - st.minB a) ∧ IsInt (st.maxB a - st.minB a + 1) ∧ n = st.maxB a - st.minB a + 1 :=
  count_spec _ _ (fun n => n) n

/-- **C53** (exact range, rasterisation). The extent of the raster is defined for exactly the same maps. -/
theorem C53_raster_iff {K : Type} [Field K] [LinearOrder K] [FloorRing K] {B : Backend 2} {D : Type} (r s : K) (st : St B D) (a : Fin 2) (n : Nat) :
    rasterExtent r s st a = some n ↔ IsInt (st.maxB a - st.minB a) ∧ IsInt (st.maxB a - st.minB a + 1) ∧ n = ⌈((st.maxB a - st.minB a + 1 : Int) : K) * bundleResolution r / s⌉.toNat :=
  count_spec _ _ (fun x => ⌈((x : Int) : K) * bundleResolution r / s⌉.toNat) n

/-- **C53, C78** (exact range, rasterisation in floating point). -/
theorem C53_raster_rounded_iff {K : Type} [Field K] [LinearOrder K] [FloorRing K] {B : Backend 2} {D : Type} (R : Arith K) (r s : K) (st : St B D) (a : Fin 2) (n : Nat) :
    rasterExtentR R r s st a = some n ↔ IsInt (st.maxB a - st.minB a) ∧ IsInt (st.maxB a - st.minB a + 1) ∧ n = extentR R r s (st.maxB a - st.minB a + 1) :=
  count_spec _ _ (fun x => extentR R r s x) n

/-- **C53** (exact range, conversion to a static map). The size is half the extent between the even index below the lower and the odd index above the upper bound, rounded up, and is defined exactly if that extent is an `int` and the size is not negative. -/
theorem C53_conversion_iff {d : Nat} {B : Backend d} {D : Type} (st : St B D) (a : Fin d) (n : Nat) :
    convSize st a = some n ↔ ∃ x : Int, x = (⌈(st.maxB a : ℚ) / 2⌉ * 2 + 1) - ⌊(st.minB a : ℚ) / 2⌋ * 2 ∧ IsInt x ∧ (n : Int) = ⌈(x : ℚ) / 2⌉ := by
  unfold convSize
  cases h : intSub (convMax st a) (convMin st a) with
  | none =>
    have : ¬ IsInt (convMax st a - convMin st a) := fun h' => by simp [(intSub_spec _ _ _).2 ⟨h', rfl⟩] at h
    simp only [reduceCtorEq, false_iff]
    rintro ⟨_, rfl, h, _⟩
    exact this h
  | some y =>
    obtain ⟨h1, h2⟩ := (intSub_spec _ _ _).1 h
    dsimp only
    constructor
    · intro e
      split_ifs at e with h3
      refine ⟨y, h2, h2 ▸ h1, ?_⟩
      rw [← Option.some.inj e, Int.toNat_of_nonneg h3]
    · rintro ⟨x, hx, _, e⟩
      have hy : y = x := h2.trans hx.symm
      subst hy
      rw [if_pos (by omega), ← e]
      simp

end St

namespace Mono

/-- **C53** (exact range, merging). -/
theorem C53_merge_iff {d : Nat} {B : Backend d} {D : Type} (st : St B D) (a : Fin d) (n : Nat) :
    mergeSize st a = some n ↔ IsInt (st.maxB a - st.minB a) ∧ IsInt (st.maxB a - st.minB a + 1) ∧ (n : Int) = st.maxB a - st.minB a + 1 := by
  unfold mergeSize
  cases h : intSub (st.maxB a) (st.minB a) with
  | none =>
    have : ¬ IsInt (st.maxB a - st.minB a) := fun h' => by simp [(intSub_spec _ _ _).2 ⟨h', rfl⟩] at h
    simp [this]
  | some y =>
    obtain ⟨h1, rfl⟩ := (intSub_spec _ _ _).1 h
    unfold IsInt at h1 ⊢
    dsimp only
    split_ifs with h2
    · rw [Option.some.injEq]
      omega
    · simp only [reduceCtorEq, false_iff]
      omega

end Mono

/-- the boundary itself: the largest extents that work, and the next ones -/
example : IsInt 2147483647 ∧ ¬ IsInt 2147483648 ∧ IsInt (-2147483648) ∧ ¬ IsInt (-2147483649) := by
  unfold IsInt; omega

/-! ### C74: translation -/

theorem run_sum {n : Nat} {Y : Type} (P : Problem (Fin n → ℝ) Y) (j : Fin n) (c : Fin P.translation.dim)
    (h : ∀ x delta, P.translation.plus x delta j = x j + delta c) : ∀ steps x, (P.run x steps).1 j = x.1 j + (steps.map fun s => s.1 c).sum
  | [], x => by simp [Problem.run]
  | s :: l, x => by
    have := run_sum P j c h l (P.translation.plus x.1 s.1, P.rotation.plus x.2 s.2)
    rw [show P.run x (s :: l) = P.run (P.translation.plus x.1 s.1, P.rotation.plus x.2 s.2) l from rfl, this, List.map_cons, List.sum_cons]
    dsimp only
    rw [h]
    ring

theorem run_sum_of {n k : Nat} {Y : Type} (P : Problem (Fin n → ℝ) Y) (T : ParamBlock (Fin n → ℝ)) (hT : P.translation = T) (hk : T.dim = k) (j : Fin n) (c : Fin k)
    (h : ∀ x delta, T.plus x delta j = x j + delta (Fin.cast hk.symm c)) : ∃ hd : P.translation.dim = k, ∀ steps x, (P.run x steps).1 j = x.1 j + (steps.map fun s => s.1 (Fin.cast hd.symm c)).sum := by
  subst hT
  exact ⟨hk, run_sum P j _ h⟩

/-- **C74** (translation, planar problem). A step of the solver has two components for the translation, and after any run the translation is the initial one plus the sum of all steps. -/
theorem C74_translation_2d (tw rw' mw : ℝ) (prior : Fin 2 → ℝ) (priorR : ℝ) (numeric : Bool) (S : ScanTerm 2) (j : Fin 2) :
    ∃ h : (problem2d tw rw' mw prior priorR numeric S).translation.dim = 2, ∀ steps x,
      ((problem2d tw rw' mw prior priorR numeric S).run x steps).1 j = x.1 j + (steps.map fun s => s.1 (Fin.cast h.symm j)).sum := by
  refine run_sum_of _ (euclidean 2) ?_ rfl j j fun _ _ => rfl
  unfold problem2d
  dsimp only
  rw [add_translation, add_translation, add_translation]

/-- **C74** (translation, quaternions). Without `only_yaw`, all three components of the translation are the initial ones plus the sum of all steps. With `only_yaw`, a step has two components, which are summed for x and y. -/
theorem C74_translation_quaternion (tw rw' mw : ℝ) (prior : Fin 3 → ℝ) (priorR : Quat) (numeric : Bool) (S : ScanTerm 3) :
    (∀ j : Fin 3, ∃ h : (problem3dQuaternion tw rw' mw prior priorR false numeric S).translation.dim = 3, ∀ steps x,
      ((problem3dQuaternion tw rw' mw prior priorR false numeric S).run x steps).1 j = x.1 j + (steps.map fun s => s.1 (Fin.cast h.symm j)).sum) ∧
    (∀ j : Fin 2, ∃ h : (problem3dQuaternion tw rw' mw prior priorR true numeric S).translation.dim = 2, ∀ steps x,
      ((problem3dQuaternion tw rw' mw prior priorR true numeric S).run x steps).1 j.castSucc = x.1 j.castSucc + (steps.map fun s => s.1 (Fin.cast h.symm j)).sum) :=
  ⟨fun j => run_sum_of _ (euclidean 3) (problemQuat_blocks tw rw' mw prior priorR false numeric S).1 rfl j j fun _ _ => rfl,
   fun j => run_sum_of _ subset2 (problemQuat_blocks tw rw' mw prior priorR true numeric S).1 rfl j.castSucc j fun _ _ => by
     match j with
     | 0 => rfl
     | 1 => rfl⟩

/-- **C74** (translation, Euler angles). The same for Euler angles. -/
theorem C74_translation_rpy (tw rw' mw : ℝ) (prior priorR : Fin 3 → ℝ) (numeric : Bool) (S : ScanTerm 3) :
    (∀ j : Fin 3, ∃ h : (problem3dRPY tw rw' mw prior priorR false numeric S).translation.dim = 3, ∀ steps x,
      ((problem3dRPY tw rw' mw prior priorR false numeric S).run x steps).1 j = x.1 j + (steps.map fun s => s.1 (Fin.cast h.symm j)).sum) ∧
    (∀ j : Fin 2, ∃ h : (problem3dRPY tw rw' mw prior priorR true numeric S).translation.dim = 2, ∀ steps x,
      ((problem3dRPY tw rw' mw prior priorR true numeric S).run x steps).1 j.castSucc = x.1 j.castSucc + (steps.map fun s => s.1 (Fin.cast h.symm j)).sum) :=
  ⟨fun j => run_sum_of _ (euclidean 3) (problemRPY_blocks tw rw' mw prior priorR false numeric S).1 rfl j j fun _ _ => rfl,
   fun j => run_sum_of _ subset2 (problemRPY_blocks tw rw' mw prior priorR true numeric S).1 rfl j.castSucc j fun _ _ => by
     match j with
     | 0 => rfl
     | 1 => rfl⟩

end Ndt
