import Verif.Proofs.MapData
import Verif.Props.Rounding
import Verif.Spec.Later
import Mathlib.LinearAlgebra.Matrix.NonsingularInverse
import Mathlib.Analysis.SpecialFunctions.Exp

/-!
Property theorems C104: the unit of length does not matter. A history with all lengths (resolution, pose of the map, clouds, sensor poses) multiplied by `s > 0` leads to the map with the same bundles and with the contents
multiplied by `s`; samples are the same. In floating point this holds for the powers of two.
-/

namespace Ndt
open St

section
variable {K : Type} [Field K] [LinearOrder K] {d : Nat}

/-- A point in other units: all coordinates multiplied by `s`. -/
def Spec.scaled (s : K) (p : Pt K d) : Pt K d := fun a => s * p a

theorem scaled_inv {s : K} (hs : s ≠ 0) (p : Pt K d) : Spec.scaled s⁻¹ (Spec.scaled s p) = p := by
  funext a; unfold Spec.scaled; rw [← mul_assoc, inv_mul_cancel₀ hs, one_mul]

/-- The geometry of a map in other units. -/
def Geo.inUnits (s : K) (g : Geo K d) : Geo K d :=
  { r := s * g.r, toMap := fun p => Spec.scaled s (g.toMap (Spec.scaled s⁻¹ p)), normal := fun p => g.normal (Spec.scaled s⁻¹ p) }

/-- A pose in other units. -/
def Spec.poseIn (s : K) (pose : Pt K d → Pt K d) : Pt K d → Pt K d := fun p => Spec.scaled s (pose (Spec.scaled s⁻¹ p))

/-- An operation on an NDT map in other units. -/
def GridOp.inUnits (s : K) : GridOp K d → GridOp K d
  | .insert pose cloud => .insert (Spec.poseIn s pose) (cloud.map (Spec.scaled s))
  | .core op => .core op

/-- A scan in other units; the ray tracer visits the same bundles. -/
def Scan.inUnits {W : Type} (s : K) (c : Scan K d W) : Scan K d W :=
  { pose := Spec.poseIn s c.pose, cloud := c.cloud.map (Spec.scaled s), ray := fun a b => c.ray (Spec.scaled s⁻¹ a) (Spec.scaled s⁻¹ b), order := c.order, order_perm := c.order_perm }

/-- An occupancy distribution with its samples in other units, `e` being the change of units of a sample. -/
def Occ.inUnits {W E : Type} (e : E → E) (o : Occ W E) : Occ W E := { free := o.free, data := o.data.map (Multiset.map e) }

/-- An operation on an occupancy map in other units: `e` is the change of units of a sample and `e'` the change back. -/
def OccMapOp.inUnits {W E : Type} (s : K) (e' : E → E) : OccMapOp K d W E → OccMapOp K d W E
  | .insert c => .insert (c.inUnits s)
  | .insertVisible c occ vm => .insertVisible (c.inUnits s) (occ.map fun f o => f (o.inUnits e')) vm
  | .core op => .core op

/-- The change of units `e` of samples belongs to the change of units of points: it is undone by `e'`, the sample of a point changes with the point, the mean of a distribution changes with its samples and its weight does not change. -/
structure Spec.UnitsOf {W E : Type} (fl : Flavour K d W E) (s : K) (e e' : E → E) : Prop where
  inv : ∀ x, e' (e x) = x
  sample : ∀ p, fl.sample (Spec.scaled s p) = e (fl.sample p)
  mean : ∀ m, fl.mean (m.map e) = Spec.scaled s (fl.mean m)
  amount : ∀ m, fl.amount (m.map e) = fl.amount m

/-- The two maps are the same in different units: same bundles, contents converted by `h`, same validity of indices, and the corners of the area converted. -/
structure Spec.SameInUnits {D : Type} [Inhabited D] {B : Backend d} (s : K) (g : Geo K d) (h : D → D) (st st' : St B D) : Prop where
  bundles : st'.bundleIndices = st.bundleIndices
  content : ∀ c k, st'.content c k = (st.content c k).map h
  bins : ∀ bi c, st'.binContent bi c = (st.binContent bi c).map h
  valid : ∀ dyn i, st'.valid dyn i = st.valid dyn i
  min : st'.getMin (s * g.r) = Spec.scaled s (st.getMin g.r)
  max : st'.getMax (s * g.r) = Spec.scaled s (st.getMax g.r)

theorem same_mapData {D : Type} [Inhabited D] {B : Backend d} (s : K) (g : Geo K d) (h : D → D) (st : St B D) : Spec.SameInUnits s g h st (mapData h st) where
  bundles := rfl
  content := mapData_content h st
  bins := fun bi c => by
    unfold binContent bundle mapData
    simp only
    cases (B.look st.bundles bi).bind fun b => b.data c <;> rfl
  valid := fun _ _ => rfl
  min := by funext a; simp only [getMin, Spec.scaled, bundleResolution, mapData]; ring
  max := by funext a; simp only [getMax, Spec.scaled, bundleResolution, mapData]; ring

theorem bothOr_map {α β : Type} {R : α → β → Prop} {f : α → β} (x : Option α) (h : ∀ a, R a (f a)) : BothOr R x (x.map f) := by
  cases x with
  | none => trivial
  | some a => exact h a

theorem mapData_init {D : Type} [Inhabited D] (h : D → D) (hd : h default = default) (k : Kind d) : mapData h (k.init D) = k.init D := by
  cases k with
  | dynamic g g' =>
    show (⟨fun _ => h default, _, _, _, _, _⟩ : St (octreeBackend d) D) = _
    rw [hd]; rfl
  | static size lo =>
    show (⟨fun _ => h default, _, _, _, _, _⟩ : St (arrayBackend d) D) = _
    rw [hd]; rfl

theorem upsert_map {A A' : Type} (φ : A → A') {z : A} {z' : A'} (hz : φ z = z') {f : A → A} {f' : A' → A'} (hf : ∀ a, f' (φ a) = φ (f a)) (i : Idx d) : ∀ l : List (Idx d × A),
    upsert z' f' i (l.map fun e => (e.1, φ e.2)) = (upsert z f i l).map fun e => (e.1, φ e.2)
  | [] => by simp only [List.map_nil, upsert, List.map_cons, ← hz, hf]
  | (j, a) :: l => by
    simp only [List.map_cons, upsert]
    by_cases e : j = i
    · simp only [if_pos e, List.map_cons, hf]
    · simp only [if_neg e]
      by_cases e2 : lexLt i j = true
      · simp only [if_pos e2, List.map_cons, ← hz, hf]
      · simp only [if_neg e2, List.map_cons, upsert_map φ hz hf i l]

section exact
variable [IsStrictOrderedRing K] [FloorRing K]

/-- **C104** (indices): the bundle of a point does not depend on the unit. -/
theorem C104_index {s : K} (hs : 0 < s) (r : K) (p : Pt K d) : toBundleIndex (s * r) (Spec.scaled s p) = toBundleIndex r p := by
  funext a
  show ⌊s * p a * (1 / (1 / 2 * (s * r)))⌋ = ⌊p a * (1 / (1 / 2 * r))⌋
  congr 1
  by_cases hr : r = 0
  · subst hr; simp
  · field_simp

theorem collect_inUnits {s : K} (hs : 0 < s) (g : Geo K d) (ok : Idx d → Bool) (pose : Pt K d → Pt K d) (cloud : List (Pt K d)) :
    collect (g.inUnits s) ok (Spec.poseIn s pose) (cloud.map (Spec.scaled s)) = (collect g ok pose cloud).map fun e => (e.1, e.2.map (Spec.scaled s)) := by
  unfold collect
  rw [List.foldl_map]
  refine List.foldl_hom (List.map fun e : Idx d × Multiset (Pt K d) => (e.1, e.2.map (Spec.scaled s))) (init := []) ?_
  · intro u p
    have h1 : Spec.poseIn s pose (Spec.scaled s p) = Spec.scaled s (pose p) := by unfold Spec.poseIn; rw [scaled_inv hs.ne']
    have h2 : (g.inUnits s).normal (Spec.scaled s (pose p)) = g.normal (pose p) := by simp only [Geo.inUnits, scaled_inv hs.ne']
    have h3 : (g.inUnits s).toMap (Spec.scaled s (pose p)) = Spec.scaled s (g.toMap (pose p)) := by simp only [Geo.inUnits, scaled_inv hs.ne']
    simp only [h1, h2, h3]
    rw [show (g.inUnits s).r = s * g.r from rfl, C104_index hs]
    split
    · split
      · exact upsert_map (Multiset.map (Spec.scaled s)) (Multiset.map_zero _) (fun m => by rw [Multiset.map_add, Multiset.map_singleton]) _ _
      · rfl
    · rfl

theorem gridRun_inUnits {s : K} (hs : 0 < s) (g : Geo K d) {B : Backend d} (dyn : Bool) (exp exp' : Multiset (Pt K d) → Bool) (he : ∀ m, exp' (m.map (Spec.scaled s)) = exp m) :
    ∀ (ops : List (GridOp K d)) (st : St B (Multiset (Pt K d))),
      gridRun (g.inUnits s) dyn exp' (ops.map (GridOp.inUnits s)) (mapData (Multiset.map (Spec.scaled s)) st) = (gridRun g dyn exp ops st).map (mapData (Multiset.map (Spec.scaled s)))
  | [], _ => rfl
  | op :: l, st => by
    have h0 : Multiset.map (Spec.scaled s) (default : Multiset (Pt K d)) = default := Multiset.map_zero _
    have hstep : gridStep (g.inUnits s) dyn exp' (op.inUnits s) (mapData (Multiset.map (Spec.scaled s)) st) = (gridStep g dyn exp op st).map (mapData (Multiset.map (Spec.scaled s))) := by
      cases op with
      | core op => exact mapData_coreStep _ h0 he dyn op st
      | insert pose cloud =>
        simp only [GridOp.inUnits, gridStep, gridInsert]
        rw [show (mapData (Multiset.map (Spec.scaled s)) st).valid dyn = st.valid dyn from rfl, collect_inUnits hs, List.map_map]
        exact mapData_updateList (Multiset.map (Spec.scaled s)) h0 (fun m a => a + m) (fun m a => a + m.map (Spec.scaled s)) (fun m a => (Multiset.map_add _ _ _).symm) dyn _ st
    simp only [List.map_cons, gridRun, hstep]
    cases gridStep g dyn exp op st with
    | none => rfl
    | some st' => exact gridRun_inUnits hs g dyn exp exp' he l st'

/-- **C104** (NDT maps). Every history of operations on a new map, static or dynamic, does the same in other units: both histories leave the contract of the storages, or they end in the same map in these units. The test
`exp'` for distributions worth expanding is the test `exp` of the distribution in the old units. -/
theorem C104_units {s : K} (hs : 0 < s) (k : Kind d) (g : Geo K d) (exp exp' : Multiset (Pt K d) → Bool) (he : ∀ m, exp' (m.map (Spec.scaled s)) = exp m) (ops : List (GridOp K d)) :
    BothOr (Spec.SameInUnits s g (Multiset.map (Spec.scaled s))) (gridRun g k.dyn exp ops (k.init _)) (gridRun (g.inUnits s) k.dyn exp' (ops.map (GridOp.inUnits s)) (k.init _)) := by
  have h := gridRun_inUnits hs g k.dyn exp exp' he ops (k.init _)
  rw [mapData_init _ (Multiset.map_zero _)] at h
  rw [h]
  exact bothOr_map _ fun st => same_mapData s g _ st

/-- sampling with the converted contents -/
theorem sample_inUnits {D : Type} {s : K} (hs : 0 < s) (g : Geo K d) {B : Backend d} (dyn : Bool) (h : D → D) (dens dens' : D → Pt K d → K) (hd : ∀ m q, dens' (h m) (Spec.scaled s q) = dens m q)
    (st : St B D) (p : Pt K d) :
    sampleNNAt (g.inUnits s) dyn dens' (Spec.scaled s p) (mapData h st) = sampleNNAt g dyn dens p st ∧ sampleBilinearAt (g.inUnits s) dyn dens' (Spec.scaled s p) (mapData h st) = sampleBilinearAt g dyn dens p st := by
  have h3 : (g.inUnits s).toMap (Spec.scaled s p) = Spec.scaled s (g.toMap p) := by simp only [Geo.inUnits, scaled_inv hs.ne']
  unfold sampleNNAt sampleBilinearAt
  rw [h3, show (g.inUnits s).r = s * g.r from rfl, C104_index hs]
  constructor
  · exact mapData_sampleWith h dyn _ _ _ (fun m => hd m _) _ st
  · unfold sampleBilinear
    have hw : interpolationWeights (toBundleIndex g.r (g.toMap p)) (Spec.scaled s (g.toMap p)) (bundleResolutionInv (s * g.r)) =
        interpolationWeights (toBundleIndex g.r (g.toMap p)) (g.toMap p) (bundleResolutionInv g.r) := by
      have e : ∀ x : K, s * x * bundleResolutionInv (s * g.r) = x * bundleResolutionInv g.r := by
        intro x
        unfold bundleResolutionInv bundleResolution
        by_cases hr : g.r = 0
        · rw [hr]; simp
        · field_simp
      funext a
      simp only [interpolationWeights, Spec.scaled, e]
    rw [hw]
    exact mapData_sampleWith h dyn _ _ _ (fun m => hd m _) _ st

/-- **C104** (samples of NDT maps). The samples after a history in other units are those after the history itself, at the converted points, for both kinds of sampling, if the density of a distribution does not depend on
the unit. -/
theorem C104_samples {s : K} (hs : 0 < s) (k : Kind d) (g : Geo K d) (exp exp' : Multiset (Pt K d) → Bool) (he : ∀ m, exp' (m.map (Spec.scaled s)) = exp m) (ops : List (GridOp K d))
    (dens dens' : Multiset (Pt K d) → Pt K d → K) (hd : ∀ m q, dens' (m.map (Spec.scaled s)) (Spec.scaled s q) = dens m q) (p : Pt K d) :
    BothOr (fun st st' => sampleNNAt (g.inUnits s) k.dyn dens' (Spec.scaled s p) st' = sampleNNAt g k.dyn dens p st ∧
        sampleBilinearAt (g.inUnits s) k.dyn dens' (Spec.scaled s p) st' = sampleBilinearAt g k.dyn dens p st)
      (gridRun g k.dyn exp ops (k.init _)) (gridRun (g.inUnits s) k.dyn exp' (ops.map (GridOp.inUnits s)) (k.init _)) := by
  have h := gridRun_inUnits hs g k.dyn exp exp' he ops (k.init _)
  rw [mapData_init _ (Multiset.map_zero _)] at h
  rw [h]
  exact bothOr_map _ fun st => sample_inUnits hs g k.dyn _ dens dens' hd st p

/-! #### occupancy maps -/
section occ
variable {W E : Type} [AddCommMonoid W]

omit [AddCommMonoid W] in
theorem occCollect_inUnits {s : K} (hs : 0 < s) (fl : Flavour K d W E) {e e' : E → E} (hu : Spec.UnitsOf fl s e e') (g : Geo K d) (ok : Idx d → Bool) (pose : Pt K d → Pt K d) (cloud : List (Pt K d)) :
    occCollect fl (g.inUnits s) ok (Spec.poseIn s pose) (cloud.map (Spec.scaled s)) = (occCollect fl g ok pose cloud).map fun x => (x.1, x.2.map e) := by
  unfold occCollect
  have hf : (cloud.map (Spec.scaled s)).filter (fun p => (g.inUnits s).normal p) = (cloud.filter fun p => g.normal p).map (Spec.scaled s) := by
    rw [List.filter_map]
    congr 1
    refine List.filter_congr fun p _ => ?_
    simp only [Function.comp, Geo.inUnits, scaled_inv hs.ne']
  rw [hf, collect_inUnits hs, List.map_map, List.map_map]
  refine List.map_congr_left fun x _ => ?_
  simp only [Function.comp, Multiset.map_map, hu.sample]

omit [AddCommMonoid W] in
theorem updateOccupied_inUnits (e : E → E) (m : Multiset E) (o : Occ W E) : (o.inUnits e).updateOccupied (m.map e) = (o.updateOccupied m).inUnits e := by
  unfold Occ.updateOccupied Occ.inUnits
  cases o.data with
  | none => rfl
  | some t => simp only [Option.map_some, Multiset.map_add]

theorem occ_default_inUnits (e : E → E) : (default : Occ W E).inUnits e = default := rfl

variable {B : Backend d}

theorem occHits_inUnits {s : K} (hs : 0 < s) (fl : Flavour K d W E) {e e' : E → E} (hu : Spec.UnitsOf fl s e e') (dyn : Bool) (ray : Pt K d → Pt K d → List (Idx d)) (start : Pt K d) :
    ∀ (l : List (Idx d × Multiset E)) (free : List (Idx d × W)) (st : St B (Occ W E)),
      occHits fl dyn (fun a b => ray (Spec.scaled s⁻¹ a) (Spec.scaled s⁻¹ b)) (Spec.scaled s start) (l.map fun x => (x.1, x.2.map e)) free (mapData (Occ.inUnits e) st) =
        (occHits fl dyn ray start l free st).map fun r => (r.1, mapData (Occ.inUnits e) r.2)
  | [], _, _ => rfl
  | x :: l, free, st => by
    simp only [List.map_cons, occHits, hu.mean, hu.amount, scaled_inv hs.ne']
    have h1 : (if fl.checkValid && !(mapData (Occ.inUnits e) st).valid dyn x.1 then some (mapData (Occ.inUnits e) st)
        else St.update dyn x.1 (fun o => o.updateOccupied (x.2.map e)) (mapData (Occ.inUnits e) st)) =
        (if fl.checkValid && !st.valid dyn x.1 then some st else St.update dyn x.1 (fun o => o.updateOccupied x.2) st).map (mapData (Occ.inUnits e)) := by
      rw [mapData_update' (Occ.inUnits e) (occ_default_inUnits e) (f := fun o => o.updateOccupied x.2) (fun o => updateOccupied_inUnits e x.2 o)]
      rw [mapData_valid]
      cases (fl.checkValid && !st.valid dyn x.1) <;> rfl
    rw [h1]
    cases (if fl.checkValid && !st.valid dyn x.1 then some st else St.update dyn x.1 (fun o => o.updateOccupied x.2) st) with
    | none => rfl
    | some st1 => exact occHits_inUnits hs fl hu dyn ray start l _ st1

omit [LinearOrder K] [IsStrictOrderedRing K] [FloorRing K] [Field K] in
theorem occFree_inUnits (e : E → E) (dyn : Bool) (free : List (Idx d × W)) (st : St B (Occ W E)) :
    occFree dyn free (mapData (Occ.inUnits e) st) = (occFree dyn free st).map (mapData (Occ.inUnits e)) :=
  mapData_updateList (Occ.inUnits e) (occ_default_inUnits e) (fun (w : W) (o : Occ W E) => o.updateFree w) (fun w o => o.updateFree w) (fun _ _ => rfl) dyn free st

omit [AddCommMonoid W] [IsStrictOrderedRing K] [FloorRing K] [Field K] [LinearOrder K] in
theorem eraseKeys_inUnits (e : E → E) (u : List (Idx d × Multiset E)) (free : List (Idx d × W)) : eraseKeys (u.map fun x => (x.1, x.2.map e)) free = eraseKeys u free := by
  unfold eraseKeys
  simp only [List.map_map, Function.comp_def]

theorem rayStart_inUnits {s : K} (hs : 0 < s) (g : Geo K d) (pose : Pt K d → Pt K d) : rayStart (g.inUnits s) (Spec.poseIn s pose) = Spec.scaled s (rayStart g pose) := by
  have h0 : Spec.scaled s⁻¹ (0 : Pt K d) = 0 := by funext a; simp [Spec.scaled]
  simp only [rayStart, Spec.poseIn, Geo.inUnits, h0, scaled_inv hs.ne']

theorem occInsert_inUnits {s : K} (hs : 0 < s) (fl : Flavour K d W E) {e e' : E → E} (hu : Spec.UnitsOf fl s e e') (g : Geo K d) (dyn : Bool) (c : Scan K d W) (st : St B (Occ W E)) :
    occInsert fl (g.inUnits s) dyn (c.inUnits s) (mapData (Occ.inUnits e) st) = (occInsert fl g dyn c st).map (mapData (Occ.inUnits e)) := by
  unfold occInsert
  simp only [Scan.inUnits, rayStart_inUnits hs]
  rw [show (mapData (Occ.inUnits e) st).valid dyn = st.valid dyn from rfl, occCollect_inUnits hs fl hu, occHits_inUnits hs fl hu]
  cases occHits fl dyn c.ray (rayStart g c.pose) (occCollect fl g (st.valid dyn) c.pose c.cloud) [] st with
  | none => rfl
  | some r =>
    simp only [Option.map_some, eraseKeys_inUnits]
    exact occFree_inUnits e dyn _ r.2

theorem visHits_inUnits {s : K} (hs : 0 < s) (fl : Flavour K d W E) {e e' : E → E} (hu : Spec.UnitsOf fl s e e') (dyn : Bool) (ray : Pt K d → Pt K d → List (Idx d)) (occ : Occ W E → K) (vm : VisModel K) (start : Pt K d)
    (startBi : Idx d) : ∀ (l : List (Idx d × Multiset E)) (free : List (Idx d × W)) (st : St B (Occ W E)),
      visHits fl dyn (fun a b => ray (Spec.scaled s⁻¹ a) (Spec.scaled s⁻¹ b)) (fun o => occ (o.inUnits e')) vm (Spec.scaled s start) startBi (l.map fun x => (x.1, x.2.map e)) free (mapData (Occ.inUnits e) st) =
        (visHits fl dyn ray occ vm start startBi l free st).map fun r => (r.1, mapData (Occ.inUnits e) r.2)
  | [], _, _ => rfl
  | x :: l, free, st => by
    have ho : ∀ o : Occ W E, occ ((o.inUnits e).inUnits e') = occ o := by
      intro o
      have : (o.inUnits e).inUnits e' = o := by
        unfold Occ.inUnits
        cases o with
        | mk free data =>
          cases data with
          | none => rfl
          | some m => simp only [Option.map_some, Multiset.map_map, Function.comp_def, hu.inv, Multiset.map_id']
      rw [this]
    simp only [List.map_cons, visHits, hu.mean, hu.amount, scaled_inv hs.ne']
    rw [mapData_visRay (Occ.inUnits e) dyn occ (fun o => occ (o.inUnits e')) ho]
    cases visRay dyn occ vm startBi (fl.amount x.2) st (ray start (fl.mean x.2)) 1 free with
    | none => rfl
    | some r =>
      cases r with
      | none => rfl
      | some r =>
        simp only
        rw [mapData_currentVisibility (Occ.inUnits e) dyn occ (fun o => occ (o.inUnits e')) ho]
        cases currentVisibility dyn occ vm startBi x.1 st with
        | none => rfl
        | some cv =>
          simp only
          by_cases hc : vm.probPrior ≤ r.1 * cv
          · rw [if_pos hc, if_pos hc, mapData_update' (Occ.inUnits e) (occ_default_inUnits e) (f := fun o => o.updateOccupied x.2) (fun o => updateOccupied_inUnits e x.2 o)]
            cases St.update dyn x.1 (fun o => o.updateOccupied x.2) st with
            | none => rfl
            | some st1 => exact visHits_inUnits hs fl hu dyn ray occ vm start startBi l _ st1
          · rw [if_neg hc, if_neg hc]
            exact visHits_inUnits hs fl hu dyn ray occ vm start startBi l _ st

theorem occRun_inUnits {s : K} (hs : 0 < s) (fl : Flavour K d W E) {e e' : E → E} (hu : Spec.UnitsOf fl s e e') (g : Geo K d) (dyn : Bool) (defRay : Pt K d → Pt K d → List (Idx d)) (exp exp' : Occ W E → Bool)
    (he : ∀ o : Occ W E, exp' (o.inUnits e) = exp o) : ∀ (ops : List (OccMapOp K d W E)) (st : St B (Occ W E)),
      occRun fl (g.inUnits s) dyn (fun a b => defRay (Spec.scaled s⁻¹ a) (Spec.scaled s⁻¹ b)) exp' (ops.map (OccMapOp.inUnits s e')) (mapData (Occ.inUnits e) st) =
        (occRun fl g dyn defRay exp ops st).map (mapData (Occ.inUnits e))
  | [], _ => rfl
  | op :: l, st => by
    have hfb : ∀ c : Scan K d W, occInsert fl (g.inUnits s) dyn (if fl.fallbackDefault then { c.inUnits s with ray := fun a b => defRay (Spec.scaled s⁻¹ a) (Spec.scaled s⁻¹ b) } else c.inUnits s)
        (mapData (Occ.inUnits e) st) = (occInsert fl g dyn (if fl.fallbackDefault then { c with ray := defRay } else c) st).map (mapData (Occ.inUnits e)) := by
      intro c
      split
      · exact occInsert_inUnits hs fl hu g dyn { c with ray := defRay } st
      · exact occInsert_inUnits hs fl hu g dyn c st
    have hstep : occStep fl (g.inUnits s) dyn (fun a b => defRay (Spec.scaled s⁻¹ a) (Spec.scaled s⁻¹ b)) exp' (op.inUnits s e') (mapData (Occ.inUnits e) st) =
        (occStep fl g dyn defRay exp op st).map (mapData (Occ.inUnits e)) := by
      cases op with
      | core op => exact mapData_coreStep _ (occ_default_inUnits e) he dyn op st
      | insert c => exact occInsert_inUnits hs fl hu g dyn c st
      | insertVisible c occ vm =>
        cases occ with
        | none => exact hfb c
        | some occ =>
          cases vm with
          | none => exact hfb c
          | some vm =>
            simp only [OccMapOp.inUnits, occStep, occInsertVisible, Option.map_some]
            simp only [Scan.inUnits, rayStart_inUnits hs]
            rw [show (g.inUnits s).r = s * g.r from rfl, C104_index hs, show (mapData (Occ.inUnits e) st).valid dyn = st.valid dyn from rfl, occCollect_inUnits hs fl hu, visHits_inUnits hs fl hu]
            cases visHits fl dyn c.ray occ vm (rayStart g c.pose) (toBundleIndex g.r (rayStart g c.pose)) (occCollect fl g (st.valid dyn) c.pose c.cloud) [] st with
            | none => rfl
            | some r =>
              obtain ⟨r1, r2⟩ := r
              cases r1 with
              | none => rfl
              | some f =>
                simp only [Option.map_some, eraseKeys_inUnits]
                exact occFree_inUnits e dyn _ r2
    simp only [List.map_cons, occRun, hstep]
    cases occStep fl g dyn defRay exp op st with
    | none => rfl
    | some st' => exact occRun_inUnits hs fl hu g dyn defRay exp exp' he l st'

/-- **C104** (occupancy maps). The same for all histories of scans, with and without visibility test, on both classes of occupancy maps; ray tracers and occupancies are those of the old units. -/
theorem C104_occupancy_units {s : K} (hs : 0 < s) (fl : Flavour K d W E) {e e' : E → E} (hu : Spec.UnitsOf fl s e e') (k : Kind d) (g : Geo K d) (defRay : Pt K d → Pt K d → List (Idx d)) (exp exp' : Occ W E → Bool)
    (he : ∀ o : Occ W E, exp' (o.inUnits e) = exp o) (ops : List (OccMapOp K d W E)) :
    BothOr (Spec.SameInUnits s g (Occ.inUnits e)) (occRun fl g k.dyn defRay exp ops (k.init _))
      (occRun fl (g.inUnits s) k.dyn (fun a b => defRay (Spec.scaled s⁻¹ a) (Spec.scaled s⁻¹ b)) exp' (ops.map (OccMapOp.inUnits s e')) (k.init _)) := by
  have h := occRun_inUnits hs fl hu g k.dyn defRay exp exp' he ops (k.init _)
  rw [mapData_init _ (occ_default_inUnits e)] at h
  rw [h]
  exact bothOr_map _ fun st => same_mapData s g _ st

end occ

/-- Both classes of occupancy maps convert their samples like points: the samples of `OccupancyGridmap` are points, those of `WeightedOccupancyGridmap` points with an unchanged weight. -/
theorem C104_flavours {s : K} (hs : 0 < s) :
    Spec.UnitsOf (occFlavour K d) s (Spec.scaled s) (Spec.scaled s⁻¹) ∧
    Spec.UnitsOf (weightedFlavour K d) s (fun x => (Spec.scaled s x.1, x.2)) (fun x => (Spec.scaled s⁻¹ x.1, x.2)) := by
  constructor
  · refine ⟨scaled_inv hs.ne', fun _ => rfl, fun m => ?_, fun m => Multiset.card_map _ _⟩
    funext a
    simp only [occFlavour, Multiset.map_map, Multiset.card_map, Function.comp_def, Spec.scaled, Multiset.sum_map_mul_left, mul_div_assoc]
  · refine ⟨fun x => by simp only [scaled_inv hs.ne'], fun _ => rfl, fun m => ?_, fun m => ?_⟩
    · funext a
      simp only [weightedFlavour, Multiset.map_map, Function.comp_def, Spec.scaled]
      have : (m.map fun x : Pt K d × K => x.2 * (s * x.1 a)) = m.map fun x => s * (x.2 * x.1 a) := Multiset.map_congr rfl fun x _ => by ring
      rw [this, Multiset.sum_map_mul_left, mul_div_assoc]
    · simp only [weightedFlavour, Multiset.map_map, Function.comp_def]

/-! #### floating point -/

/-- **C104** (indices in floating point): for the powers of two the computed bundle, and whether it is in the range of `int`, do not depend on the unit. -/
theorem C104_index_float (t : Nat) (ht : 1 ≤ t) (n : Int) (r : K) (p : Pt K d) :
    toBundleIndexR (ieeeArith K t ht) ((2 : K) ^ n * r) (Spec.scaled ((2 : K) ^ n) p) = toBundleIndexR (ieeeArith K t ht) r p := by
  have h2 : (2 : K) ^ n ≠ 0 := zpow_ne_zero _ two_ne_zero
  have hsc : ∀ t (x : K) (m : Int), toBits t ((2 : K) ^ m * x) = (2 : K) ^ m * toBits t x := by
    intro t x m; rw [mul_comm, toBits_scale, mul_comm]
  have e1 : bundleResolutionR (ieeeArith K t ht) ((2 : K) ^ n * r) = (2 : K) ^ n * bundleResolutionR (ieeeArith K t ht) r := by
    show toBits t (toBits 53 (1 / 2 * ((2 : K) ^ n * r))) = (2 : K) ^ n * toBits t (toBits 53 (1 / 2 * r))
    rw [show (1 / 2 : K) * ((2 : K) ^ n * r) = (2 : K) ^ n * (1 / 2 * r) by ring, hsc, hsc]
  have e2 : bundleResolutionInvR (ieeeArith K t ht) ((2 : K) ^ n * r) = (2 : K) ^ (-n) * bundleResolutionInvR (ieeeArith K t ht) r := by
    show toBits t (toBits 53 (1 / bundleResolutionR (ieeeArith K t ht) ((2 : K) ^ n * r))) = (2 : K) ^ (-n) * toBits t (toBits 53 (1 / bundleResolutionR (ieeeArith K t ht) r))
    rw [e1, show (1 : K) / ((2 : K) ^ n * bundleResolutionR (ieeeArith K t ht) r) = (2 : K) ^ (-n) * (1 / bundleResolutionR (ieeeArith K t ht) r) by rw [zpow_neg, one_div, one_div, mul_inv], hsc, hsc]
  have e3 : ∀ x, coordIndexR (ieeeArith K t ht) ((2 : K) ^ n * r) ((2 : K) ^ n * x) = coordIndexR (ieeeArith K t ht) r x := by
    intro x
    unfold coordIndexR
    rw [e2, show (2 : K) ^ n * x * ((2 : K) ^ (-n) * bundleResolutionInvR (ieeeArith K t ht) r) = x * bundleResolutionInvR (ieeeArith K t ht) r by rw [zpow_neg]; field_simp]
  unfold toBundleIndexR
  simp only [Spec.scaled, e3]

theorem collectR_inUnits (t : Nat) (ht : 1 ≤ t) (n : Int) (g : Geo K d) (ok : Idx d → Bool) (pose : Pt K d → Pt K d) : ∀ (cloud : List (Pt K d)) (u : List (Idx d × Multiset (Pt K d))),
    collectR (ieeeArith K t ht) (g.inUnits ((2 : K) ^ n)) ok (Spec.poseIn ((2 : K) ^ n) pose) (cloud.map (Spec.scaled ((2 : K) ^ n))) (u.map fun e => (e.1, e.2.map (Spec.scaled ((2 : K) ^ n)))) =
      (collectR (ieeeArith K t ht) g ok pose cloud u).map (List.map fun e => (e.1, e.2.map (Spec.scaled ((2 : K) ^ n))))
  | [], u => rfl
  | p :: l, u => by
    have h2 : (2 : K) ^ n ≠ 0 := zpow_ne_zero _ two_ne_zero
    have h1 : Spec.poseIn ((2 : K) ^ n) pose (Spec.scaled ((2 : K) ^ n) p) = Spec.scaled ((2 : K) ^ n) (pose p) := by unfold Spec.poseIn; rw [scaled_inv h2]
    have hn : (g.inUnits ((2 : K) ^ n)).normal (Spec.scaled ((2 : K) ^ n) (pose p)) = g.normal (pose p) := by simp only [Geo.inUnits, scaled_inv h2]
    have h3 : (g.inUnits ((2 : K) ^ n)).toMap (Spec.scaled ((2 : K) ^ n) (pose p)) = Spec.scaled ((2 : K) ^ n) (g.toMap (pose p)) := by simp only [Geo.inUnits, scaled_inv h2]
    simp only [List.map_cons, collectR, h1, hn, h3]
    rw [show (g.inUnits ((2 : K) ^ n)).r = (2 : K) ^ n * g.r from rfl, C104_index_float]
    split
    · cases toBundleIndexR (ieeeArith K t ht) g.r (g.toMap (pose p)) with
      | none => rfl
      | some bi =>
        simp only [Option.bind_some]
        rw [← collectR_inUnits t ht n g ok pose l]
        congr 1
        split
        · exact upsert_map (Multiset.map (Spec.scaled ((2 : K) ^ n))) (Multiset.map_zero _) (fun m => by rw [Multiset.map_add, Multiset.map_singleton]) _ _
        · rfl
    · exact collectR_inUnits t ht n g ok pose l u

/-- **C104** (floating point). For the powers of two the theorem on NDT maps holds with the rounded quantisation of maps of floats (`t = 24`) and doubles (`t = 53`) as well. -/
theorem C104_units_float (t : Nat) (ht : 1 ≤ t) (n : Int) (k : Kind d) (g : Geo K d) (exp exp' : Multiset (Pt K d) → Bool) (he : ∀ m, exp' (m.map (Spec.scaled ((2 : K) ^ n))) = exp m) (ops : List (GridOp K d)) :
    BothOr (Spec.SameInUnits ((2 : K) ^ n) g (Multiset.map (Spec.scaled ((2 : K) ^ n)))) (gridRunR (ieeeArith K t ht) g k.dyn exp ops (k.init _))
      (gridRunR (ieeeArith K t ht) (g.inUnits ((2 : K) ^ n)) k.dyn exp' (ops.map (GridOp.inUnits ((2 : K) ^ n))) (k.init _)) := by
  have h0 : Multiset.map (Spec.scaled ((2 : K) ^ n)) (default : Multiset (Pt K d)) = default := Multiset.map_zero _
  have key : ∀ (ops : List (GridOp K d)) (st : St k.backend (Multiset (Pt K d))),
      gridRunR (ieeeArith K t ht) (g.inUnits ((2 : K) ^ n)) k.dyn exp' (ops.map (GridOp.inUnits ((2 : K) ^ n))) (mapData (Multiset.map (Spec.scaled ((2 : K) ^ n))) st) =
        (gridRunR (ieeeArith K t ht) g k.dyn exp ops st).map (mapData (Multiset.map (Spec.scaled ((2 : K) ^ n)))) := by
    intro ops
    induction ops with
    | nil => intro st; rfl
    | cons op l ih =>
      intro st
      have hstep : gridStepR (ieeeArith K t ht) (g.inUnits ((2 : K) ^ n)) k.dyn exp' (op.inUnits ((2 : K) ^ n)) (mapData (Multiset.map (Spec.scaled ((2 : K) ^ n))) st) =
          (gridStepR (ieeeArith K t ht) g k.dyn exp op st).map (mapData (Multiset.map (Spec.scaled ((2 : K) ^ n)))) := by
        cases op with
        | core op => exact mapData_coreStep _ h0 he k.dyn op st
        | insert pose cloud =>
          simp only [GridOp.inUnits, gridStepR, gridInsertR]
          have hc := collectR_inUnits t ht n g (st.valid k.dyn) pose cloud []
          rw [List.map_nil] at hc
          rw [show (mapData (Multiset.map (Spec.scaled ((2 : K) ^ n))) st).valid k.dyn = st.valid k.dyn from rfl, hc]
          cases collectR (ieeeArith K t ht) g (st.valid k.dyn) pose cloud [] with
          | none => rfl
          | some u =>
            simp only [Option.map_some, Option.bind_some, List.map_map]
            exact mapData_updateList (Multiset.map (Spec.scaled ((2 : K) ^ n))) h0 (fun m a => a + m) (fun m a => a + m.map (Spec.scaled ((2 : K) ^ n))) (fun m a => (Multiset.map_add _ _ _).symm) k.dyn _ st
      simp only [List.map_cons, gridRunR, hstep]
      cases gridStepR (ieeeArith K t ht) g k.dyn exp op st with
      | none => rfl
      | some st' => exact ih st'
  have h := key ops (k.init _)
  rw [mapData_init _ h0] at h
  rw [h]
  exact bothOr_map _ fun st => same_mapData _ g _ st

end exact
end

/-! ### The hypotheses are met -/

section gauss
variable {d : Nat}

/-- mean of a sample -/
noncomputable def Spec.sampleMean (m : Multiset (Pt ℝ d)) : Pt ℝ d := fun a => (m.map fun p => p a).sum / m.card

/-- covariance matrix of a sample -/
noncomputable def Spec.sampleCov (m : Multiset (Pt ℝ d)) : Matrix (Fin d) (Fin d) ℝ := fun a b => (m.map fun p => (p a - Spec.sampleMean m a) * (p b - Spec.sampleMean m b)).sum / (m.card - 1)

/-- the non-normalised normal density of a sample -/
noncomputable def Spec.gaussOf (m : Multiset (Pt ℝ d)) (q : Pt ℝ d) : ℝ :=
  Real.exp (-(1 / 2) * ∑ a, ∑ b, (q a - Spec.sampleMean m a) * (Spec.sampleCov m)⁻¹ a b * (q b - Spec.sampleMean m b))

/-- The density of the normal distribution with mean and covariance of the points of a distribution does not depend on the unit, as `C104_samples` requires. -/
theorem C104_normal_density {s : ℝ} (hs : 0 < s) (m : Multiset (Pt ℝ d)) (q : Pt ℝ d) : Spec.gaussOf (m.map (Spec.scaled s)) (Spec.scaled s q) = Spec.gaussOf m q := by
  have hm : Spec.sampleMean (m.map (Spec.scaled s)) = Spec.scaled s (Spec.sampleMean m) := by
    funext a
    simp only [Spec.sampleMean, Multiset.map_map, Multiset.card_map, Function.comp_def, Spec.scaled, Multiset.sum_map_mul_left, mul_div_assoc]
  have hc : Spec.sampleCov (m.map (Spec.scaled s)) = (s * s) • Spec.sampleCov m := by
    funext a b
    have : (m.map fun p : Pt ℝ d => (s * p a - s * Spec.sampleMean m a) * (s * p b - s * Spec.sampleMean m b)) = m.map fun p => s * s * ((p a - Spec.sampleMean m a) * (p b - Spec.sampleMean m b)) :=
      Multiset.map_congr rfl fun p _ => by ring
    simp only [Spec.sampleCov, hm, Multiset.map_map, Multiset.card_map, Function.comp_def, Spec.scaled, this, Multiset.sum_map_mul_left, Matrix.smul_apply, smul_eq_mul, mul_div_assoc]
  have hi : ((s * s) • Spec.sampleCov m)⁻¹ = (s * s)⁻¹ • (Spec.sampleCov m)⁻¹ := by
    have hss : s * s ≠ 0 := (mul_pos hs hs).ne'
    by_cases hu : IsUnit (Spec.sampleCov m).det
    · exact Matrix.inv_smul' (Spec.sampleCov m) (Units.mk0 _ hss) hu
    · have hu' : ¬ IsUnit ((s * s) • Spec.sampleCov m).det := by
        rw [Matrix.det_smul]
        intro h
        exact hu (isUnit_of_mul_isUnit_right h)
      rw [Matrix.nonsing_inv_apply_not_isUnit _ hu, Matrix.nonsing_inv_apply_not_isUnit _ hu', smul_zero]
  unfold Spec.gaussOf
  rw [hm, hc, hi]
  congr 2
  refine Finset.sum_congr rfl fun a _ => Finset.sum_congr rfl fun b _ => ?_
  simp only [Spec.scaled, Matrix.smul_apply, smul_eq_mul]
  field_simp

end gauss

/-- Non-vacuity: a static map in metres and the same map in millimetres, with two points in two bundles and an expansion; both histories are defined. -/
def unitsGeo : Geo ℚ 1 := { r := 1, toMap := fun p a => p a - 1 / 4, normal := fun _ => true }

def unitsOps : List (GridOp ℚ 1) := [.insert (fun p a => p a + 1 / 2) [fun _ => 0, fun _ => 1 / 2], .core .expandAll]

example : ((gridRun unitsGeo false (fun m => decide (m ≠ 0)) unitsOps ((Kind.static (fun _ => 2) (fun _ => 0)).init _)).map fun st => (st.content 0 (fun _ => 0), st.bundleIndices.length)) =
      some (some ({fun _ => 1 / 4, fun _ => 3 / 4} : Multiset (Pt ℚ 1)), 3) ∧
    ((gridRun (unitsGeo.inUnits 1000) false (fun m => decide (m ≠ 0)) (unitsOps.map (GridOp.inUnits 1000)) ((Kind.static (fun _ => 2) (fun _ => 0)).init _)).map fun st => (st.content 0 (fun _ => 0), st.bundleIndices.length)) =
      some (some ({fun _ => 250, fun _ => 750} : Multiset (Pt ℚ 1)), 3) ∧
    (∀ m : Multiset (Pt ℚ 1), decide (m.map (Spec.scaled 1000) ≠ 0) = decide (m ≠ 0)) := by
  refine ⟨by decide +kernel, by decide +kernel, fun m => ?_⟩
  simp only [ne_eq, Multiset.map_eq_zero]

end Ndt
