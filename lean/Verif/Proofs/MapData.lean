import Verif.Model.OccMap
import Verif.Model.Sampling

/-!
Renaming the contents of the distributions of a map by a function `h` commutes with every operation whose updates commute with `h`.
-/

namespace Ndt
namespace St
variable {d : Nat} {B : Backend d} {D D' : Type} [Inhabited D] [Inhabited D'] (h : D → D')

/-- the state with all contents renamed -/
def mapData (st : St B D) : St B D' :=
  { heap := fun a => h (st.heap a), next := st.next, storage := st.storage, bundles := st.bundles, minB := st.minB, maxB := st.maxB }

omit [Inhabited D] [Inhabited D'] in
theorem mapData_valid (dyn : Bool) (st : St B D) (i : Idx d) : (mapData h st).valid dyn i = st.valid dyn i := rfl

omit [Inhabited D] [Inhabited D'] in
theorem mapData_content (st : St B D) (c : Nat) (k : Idx d) : (mapData h st).content c k = (st.content c k).map h := by
  unfold content dist mapData
  cases B.look (st.storage c) k <;> rfl

omit [Inhabited D] [Inhabited D'] in
theorem mapData_update (st : St B D) (a : Nat) (x : D) : mapData h { st with heap := Function.update st.heap a x } = { mapData h st with heap := Function.update (mapData h st).heap a (h x) } := by
  have : (fun i => h (Function.update st.heap a x i)) = Function.update (fun i => h (st.heap i)) a (h x) := by
    funext i
    by_cases e : i = a
    · subst e; rw [Function.update_self, Function.update_self]
    · rw [Function.update_of_ne e, Function.update_of_ne e]
  unfold mapData
  simp only [this]

variable (hd : h default = default)
include hd

theorem mapData_getAllocateDist (c : Nat) (k : Idx d) (st : St B D) :
    getAllocateDist c k (mapData h st) = (getAllocateDist c k st).map fun r => (r.1, mapData h r.2) := by
  unfold getAllocateDist
  simp only [show (mapData h st).storage = st.storage from rfl]
  split
  · cases hg : B.get (st.storage c) k with
    | some a => rfl
    | none =>
      simp only [Option.map_some]
      have := congrArg (fun s : St B D' => { s with next := st.next + 1, storage := Function.update st.storage c (B.insert (st.storage c) k st.next) }) (mapData_update h st st.next default)
      rw [hd] at this
      exact congrArg (fun x => some (st.next, x)) this.symm
  · rfl

theorem mapData_allocBins : ∀ (l : List (Nat × Idx d)) (b : Bundle) (st : St B D), allocBins l b (mapData h st) = (allocBins l b st).map fun r => (r.1, mapData h r.2)
  | [], _, _ => rfl
  | (c, k) :: l, b, st => by
    simp only [allocBins]
    cases b.data c with
    | some _ => exact mapData_allocBins l b st
    | none =>
      simp only [mapData_getAllocateDist h hd]
      cases getAllocateDist c k st with
      | none => rfl
      | some r => exact mapData_allocBins l _ r.2

theorem mapData_getAllocate (dyn : Bool) (bi : Idx d) (st : St B D) : getAllocate dyn bi (mapData h st) = (getAllocate dyn bi st).map fun r => (r.1, mapData h r.2) := by
  unfold getAllocate
  simp only [show (mapData h st).bundles = st.bundles from rfl]
  split
  · cases B.get st.bundles bi with
    | some b => rfl
    | none =>
      have := mapData_allocBins h hd (applyIndices bi 0 (twoPow d)) Bundle.new ({ st with bundles := B.insert st.bundles bi Bundle.new } : St B D)
      simp only [show mapData h ({ st with bundles := B.insert st.bundles bi Bundle.new } : St B D) = { mapData h st with bundles := B.insert st.bundles bi Bundle.new } from rfl] at this
      simp only [this]
      cases allocBins (applyIndices bi 0 (twoPow d)) Bundle.new ({ st with bundles := B.insert st.bundles bi Bundle.new } : St B D) with
      | none => rfl
      | some r =>
        simp only [Option.map_some, updateIndices]
        cases dyn <;> rfl
  · rfl

omit [Inhabited D] [Inhabited D'] hd in
theorem mapData_applyBins {f : D → D} {f' : D' → D'} (hf : ∀ x, f' (h x) = h (f x)) (b : Bundle) : ∀ (l : List Nat) (st : St B D),
    applyBins f' b l (mapData h st) = (applyBins f b l st).map (mapData h)
  | [], _ => rfl
  | c :: l, st => by
    simp only [applyBins]
    cases b.data c with
    | none => rfl
    | some a =>
      rw [← mapData_applyBins hf b l, mapData_update, ← hf]
      rfl

theorem mapData_update' {f : D → D} {f' : D' → D'} (hf : ∀ x, f' (h x) = h (f x)) (dyn : Bool) (bi : Idx d) (st : St B D) :
    update dyn bi f' (mapData h st) = (update dyn bi f st).map (mapData h) := by
  unfold update
  rw [mapData_getAllocate h hd]
  cases getAllocate dyn bi st with
  | none => rfl
  | some r => exact mapData_applyBins h hf r.1 _ r.2

theorem mapData_updateList {X : Type} (F : X → D → D) (F' : X → D' → D') (hF : ∀ x a, F' x (h a) = h (F x a)) (dyn : Bool) : ∀ (l : List (Idx d × X)) (st : St B D),
    updateList dyn (l.map fun e => (e.1, F' e.2)) (mapData h st) = (updateList dyn (l.map fun e => (e.1, F e.2)) st).map (mapData h)
  | [], _ => rfl
  | e :: l, st => by
    simp only [List.map_cons, updateList]
    rw [mapData_update' h hd (hF e.2)]
    cases update dyn e.1 (F e.2) st with
    | none => rfl
    | some s => exact mapData_updateList F F' hF dyn l s

variable {exp : D → Bool} {exp' : D' → Bool} (he : ∀ x, exp' (h x) = exp x)
include he

omit [Inhabited D] [Inhabited D'] hd in
theorem mapData_expandBundle (b : Bundle) (st : St B D) : expandBundle exp' b (mapData h st) = expandBundle exp b st := by
  unfold expandBundle
  congr 1
  funext c
  cases b.data c with
  | none => rfl
  | some a => exact he _

omit he in
theorem mapData_allocNeighbours (dyn : Bool) (bi : Idx d) : ∀ (l : List (Idx d)) (st : St B D), allocNeighbours dyn bi l (mapData h st) = (allocNeighbours dyn bi l st).map (mapData h)
  | [], _ => rfl
  | o :: l, st => by
    simp only [allocNeighbours]
    by_cases hv : st.valid dyn (fun a => bi a + o a) = true
    · have hv' : (mapData h st).valid dyn (fun a => bi a + o a) = true := hv
      rw [if_pos hv, if_pos hv', mapData_getAllocate h hd]
      cases getAllocate dyn (fun a => bi a + o a) st with
      | none => rfl
      | some r => exact mapData_allocNeighbours dyn bi l r.2
    · have hv' : ¬ (mapData h st).valid dyn (fun a => bi a + o a) = true := hv
      rw [if_neg hv, if_neg hv']
      exact mapData_allocNeighbours dyn bi l st

theorem mapData_allocPartial (dyn : Bool) (bi : Idx d) (st : St B D) : allocPartial dyn exp' bi (mapData h st) = (allocPartial dyn exp bi st).map (mapData h) := by
  unfold allocPartial
  simp only [show (mapData h st).bundles = st.bundles from rfl]
  cases B.get st.bundles bi with
  | none => rfl
  | some b =>
    simp only [mapData_expandBundle h he]
    split
    · rw [mapData_allocNeighbours h hd]
      cases allocNeighbours dyn bi (offsets d) st <;> rfl
    · rfl

theorem mapData_allocPartialList (dyn : Bool) : ∀ (l : List (Idx d)) (st : St B D), allocPartialList dyn exp' l (mapData h st) = (allocPartialList dyn exp l st).map (mapData h)
  | [], _ => rfl
  | bi :: l, st => by
    simp only [allocPartialList]
    rw [mapData_allocPartial h hd he]
    cases allocPartial dyn exp bi st with
    | none => rfl
    | some s => exact mapData_allocPartialList dyn l s

theorem mapData_coreStep (dyn : Bool) (op : CoreOp d) (st : St B D) : coreStep dyn exp' op (mapData h st) = (coreStep dyn exp op st).map (mapData h) := by
  cases op with
  | bundleAt bi =>
    simp only [coreStep, getDistributionBundle]
    by_cases hv : st.valid dyn bi = true
    · have hv' : (mapData h st).valid dyn bi = true := hv
      rw [if_pos hv, if_pos hv', mapData_getAllocate h hd]
      cases getAllocate dyn bi st <;> rfl
    · have hv' : ¬ (mapData h st).valid dyn bi = true := hv
      rw [if_neg hv, if_neg hv']; rfl
  | get bi =>
    simp only [coreStep, getBundle, mapData_valid]
    simp only [show (mapData h st).bundles = st.bundles from rfl]
    split
    · split <;> rfl
    · rfl
  | expandOne bi =>
    simp only [coreStep]
    rw [show getBundle dyn bi (mapData h st) = getBundle dyn bi st from rfl]
    cases getBundle dyn bi st with
    | none => rfl
    | some r =>
      cases r with
      | none => rfl
      | some _ => exact mapData_allocPartial h hd he dyn bi st
  | expandAll => exact mapData_allocPartialList h hd he dyn _ st

omit [Inhabited D] [Inhabited D'] hd he in
theorem mapData_sampleWith {K : Type} [Field K] (dyn : Bool) (w : Nat → K) (f : D → K) (f' : D' → K) (hf : ∀ x, f' (h x) = f x) (bi : Idx d) (st : St B D) :
    sampleWith dyn w f' bi (mapData h st) = sampleWith dyn w f bi st := by
  unfold sampleWith evaluate
  simp only [mapData_valid, show (mapData h st).bundles = st.bundles from rfl]
  split
  · split
    · cases B.get st.bundles bi with
      | none => rfl
      | some b =>
        simp only
        congr 2
        funext r i
        cases b.data i with
        | none => rfl
        | some a => simp only [show (mapData h st).heap a = h (st.heap a) from rfl, hf]
    · rfl
  · rfl

omit [Inhabited D] [Inhabited D'] hd he in
theorem mapData_sumOccupancy {K : Type} [Field K] (occ : D → K) (occ' : D' → K) (ho : ∀ x, occ' (h x) = occ x) (b : Bundle) (st : St B D) : ∀ (l : List Nat) (x : K),
    sumOccupancy occ' b (mapData h st) l x = sumOccupancy occ b st l x
  | [], _ => rfl
  | c :: l, x => by
    simp only [sumOccupancy]
    cases b.data c with
    | none => rfl
    | some a =>
      simp only [show (mapData h st).heap a = h (st.heap a) from rfl, ho]
      exact mapData_sumOccupancy occ occ' ho b st l _

omit [Inhabited D] [Inhabited D'] hd he in
theorem mapData_currentVisibility {K : Type} [Field K] [LinearOrder K] (dyn : Bool) (occ : D → K) (occ' : D' → K) (ho : ∀ x, occ' (h x) = occ x) (vm : VisModel K) (startBi bi : Idx d) (st : St B D) :
    currentVisibility dyn occ' vm startBi bi (mapData h st) = currentVisibility dyn occ vm startBi bi st := by
  have hb : ∀ bi, bundleOccupancy dyn occ' bi (mapData h st) = bundleOccupancy dyn occ bi st := by
    intro bi
    unfold bundleOccupancy
    rw [show getBundle dyn bi (mapData h st) = getBundle dyn bi st from rfl]
    cases getBundle dyn bi st with
    | none => rfl
    | some r =>
      cases r with
      | none => rfl
      | some b => exact mapData_sumOccupancy h occ occ' ho b st _ _
  have hp : ∀ (l : List (Fin d)) (x : K), occlusionProb dyn occ' startBi bi (mapData h st) l x = occlusionProb dyn occ startBi bi st l x := by
    intro l
    induction l with
    | nil => intro x; rfl
    | cons c l ih =>
      intro x
      simp only [occlusionProb, mapData_valid, hb]
      split
      · cases bundleOccupancy dyn occ (occlusionIndex startBi bi c) st with
        | none => rfl
        | some o => exact ih _
      · exact ih _
  unfold currentVisibility
  rw [hp]

omit [Inhabited D] [Inhabited D'] hd he in
theorem mapData_visRay {K W : Type} [Field K] [LinearOrder K] [AddCommMonoid W] (dyn : Bool) (occ : D → K) (occ' : D' → K) (ho : ∀ x, occ' (h x) = occ x) (vm : VisModel K) (startBi : Idx d) (n : W) (st : St B D) :
    ∀ (l : List (Idx d)) (v : K) (free : List (Idx d × W)), visRay dyn occ' vm startBi n (mapData h st) l v free = visRay dyn occ vm startBi n st l v free
  | [], _, _ => rfl
  | bi :: l, v, free => by
    simp only [visRay, mapData_currentVisibility h dyn occ occ' ho, mapData_valid]
    cases currentVisibility dyn occ vm startBi bi st with
    | none => rfl
    | some cv =>
      simp only
      split
      · rfl
      · exact mapData_visRay dyn occ occ' ho vm startBi n st l _ _

end St
end Ndt
