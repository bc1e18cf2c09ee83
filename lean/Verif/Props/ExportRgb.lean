import Verif.Model.ExportRgb
import Verif.Props.Export
import Mathlib.Order.Bounds.Basic

/-! Property theorem C80: coloured point clouds. -/

namespace Ndt
open St

section
variable {K : Type} [Field K] [LinearOrder K] {C : Type}

omit [Field K] in
theorem zRange_fold (ps : List (Pt K 3)) : ∀ (S : Set K) (a b : K), IsLeast S a → IsGreatest S b →
    IsLeast (S ∪ {z | ∃ q ∈ ps, z = q 2}) (ps.foldl (fun r q => (min r.1 (q 2), max r.2 (q 2))) (a, b)).1 ∧
    IsGreatest (S ∪ {z | ∃ q ∈ ps, z = q 2}) (ps.foldl (fun r q => (min r.1 (q 2), max r.2 (q 2))) (a, b)).2 := by
  induction ps with
  | nil =>
    intro S a b ha hb
    have : (S ∪ {z | ∃ q ∈ ([] : List (Pt K 3)), z = q 2}) = S := by ext z; simp
    rw [this]; exact ⟨ha, hb⟩
  | cons p ps ih =>
    intro S a b ha hb
    have e : (S ∪ {z | ∃ q ∈ p :: ps, z = q 2}) = (S ∪ {p 2}) ∪ {z | ∃ q ∈ ps, z = q 2} := by
      ext z; simp only [Set.mem_union, Set.mem_ofPred_eq, Set.mem_singleton_iff, List.mem_cons, exists_eq_or_imp, or_assoc]
    rw [e]
    exact ih (S ∪ {p 2}) _ _ (ha.union isLeast_singleton) (hb.union isGreatest_singleton)

omit [Field K] in
theorem zRange_spec (cloud : List (Pt K 3)) (r : K × K) (h : zRange cloud = some r) :
    IsLeast {z | ∃ q ∈ cloud, z = q 2} r.1 ∧ IsGreatest {z | ∃ q ∈ cloud, z = q 2} r.2 := by
  cases cloud with
  | nil => cases h
  | cons p ps =>
    cases h
    have := zRange_fold ps {p 2} (p 2) (p 2) isLeast_singleton isGreatest_singleton
    have e : {z | ∃ q ∈ p :: ps, z = q 2} = {p 2} ∪ {z | ∃ q ∈ ps, z = q 2} := by ext z; simp
    rw [e]; exact this

omit [Field K] in
/-- the colours of a cloud -/
theorem colour_spec (interp : K → K → K → C) (cloud : List (Pt K 3)) (lo hi : K) (hlo : cloud ≠ [] → IsLeast {z | ∃ q ∈ cloud, z = q 2} lo) (hhi : cloud ≠ [] → IsGreatest {z | ∃ q ∈ cloud, z = q 2} hi) :
    colour interp cloud = cloud.map fun p => (p, interp (p 2) lo hi) := by
  cases cloud with
  | nil => rfl
  | cons p ps =>
    obtain ⟨r, hr⟩ : ∃ r, zRange (p :: ps) = some r := ⟨_, rfl⟩
    obtain ⟨h1, h2⟩ := zRange_spec _ r hr
    have e1 := h1.unique (hlo (by simp))
    have e2 := h2.unique (hhi (by simp))
    unfold colour
    rw [hr, ← e1, ← e2]

theorem foldl_push {X Y : Type} (f : X → Option Y) (l : List X) : ∀ acc : List Y, l.foldl (fun acc x => acc ++ (f x).toList) acc = acc ++ l.filterMap f := by
  induction l with
  | nil => intro acc; simp
  | cons x l ih =>
    intro acc
    rw [List.foldl_cons, ih, List.filterMap_cons]
    cases f x <;> simp

variable [IsStrictOrderedRing K] [FloorRing K]

/-- **C80** (occupancy maps). For every reachable occupancy map, every transformation, threshold and colour scale, and with or without allocation of all neighbours: the coloured cloud consists of exactly the points of the cloud without colours (C69), i.e.
of the transformed mean of every distribution with data whose occupancy is not below the threshold, once; and the colour of a point is that of its height between the lowest and the highest point of the cloud. -/
theorem C80_rgb_occupancy (k : Kind 3) (g : Geo K 3) (hr : 0 < g.r) (defRay : Pt K 3 → Pt K 3 → List (Idx 3)) (exp : Occ Nat (Pt K 3) → Bool)
    (ops : List (OccMapOp K 3 Nat (Pt K 3))) (st st' : St k.backend (Occ Nat (Pt K 3)))
    (h : occRun (occFlavour K 3) g k.dyn defRay exp ops (k.init _) = some st) (all : Bool) (ha : st.allocateAll k.dyn exp all = some st')
    (T : Pt K 3 → Pt K 3) (interp : K → K → K → C) (occ : Occ Nat (Pt K 3) → K) (threshold : K) :
    ∃ keys, Spec.Lists st (fun o => o.data ≠ none ∧ threshold ≤ occ o) keys ∧
      let point := fun e : Nat × Idx 3 => T (Spec.meanOf ((st.content e.1 e.2).getD Occ.new).samples)
      (∀ dens, cloudOcc id T dens occ threshold st' = keys.flatMap fun e => let o := (st.content e.1 e.2).getD Occ.new
        entry id (point e) (dens o.samples (Spec.meanOf o.samples) * occ o)) ∧
      ∀ lo hi, (keys ≠ [] → IsLeast {z | ∃ e ∈ keys, z = point e 2} lo) → (keys ≠ [] → IsGreatest {z | ∃ e ∈ keys, z = point e 2} hi) →
        rgbOcc T interp occ threshold st' = keys.map fun e => (point e, interp (point e 2) lo hi) := by
  have hI : RInv k.lawful k.dyn st := (occRun_inv k.lawful (occFlavour K 3) g k.dyn defRay exp ops _ st k.init_rinv h).1
  obtain ⟨hI', hv, hk⟩ := allocateAll_spec k.lawful k.dyn exp all st st' hI ha
  refine ⟨exportKeys occ threshold st', (cloudOcc_keys k g hr defRay exp ops st st' h all ha id T (fun _ _ => 0) occ threshold).1, ?_⟩
  intro point
  refine ⟨fun dens => (cloudOcc_keys k g hr defRay exp ops st st' h all ha id T dens occ threshold).2.1, fun lo hi hlo hhi => ?_⟩
  have hcloud : st'.items.foldl (fun cloud e => match e.2.data with
      | none => cloud
      | some s => if occ e.2 < threshold then cloud else cloud ++ [T (meanPoint s)]) [] = (exportKeys occ threshold st').map point := by
    set sel : Occ Nat (Pt K 3) → Option (Pt K 3) := fun o => if occ o < threshold then none else o.data.map fun s => T (meanPoint s) with hsel
    have e1 : (fun (cloud : List (Pt K 3)) (e : Idx 3 × Occ Nat (Pt K 3)) => match e.2.data with
        | none => cloud
        | some s => if occ e.2 < threshold then cloud else cloud ++ [T (meanPoint s)]) =
        fun cloud e => cloud ++ (sel e.2).toList := by
      funext cloud e
      simp only [hsel]
      by_cases ht : occ e.2 < threshold
      · simp only [if_pos ht]; cases e.2.data <;> simp
      · simp only [if_neg ht]; cases e.2.data <;> simp
    rw [e1]
    refine (foldl_push (fun e : Idx 3 × Occ Nat (Pt K 3) => sel e.2) st'.items []).trans ?_
    rw [List.nil_append, items_eq k.lawful st' hI'.inv.store, List.filterMap_map]
    unfold exportKeys
    generalize st'.itemKeys = l
    induction l with
    | nil => rfl
    | cons e l ih =>
      rw [List.filterMap_cons, Function.comp_apply, List.filter_cons, ih]
      have hp : point e = T (Spec.meanOf ((st'.content e.1 e.2).getD default).samples) := by
        show T (Spec.meanOf ((st.content e.1 e.2).getD default).samples) = _
        rw [hv]
      generalize (st'.content e.1 e.2).getD default = o at hp
      simp only [hsel]
      by_cases ht : occ o < threshold
      · simp [ht]
      · cases hd : o.data with
        | none => simp
        | some s =>
          have : o.samples = s := by unfold Occ.samples; rw [hd]
          simp only [if_neg ht, Option.map_some, Option.isSome_some, decide_eq_false ht, Bool.not_false, Bool.and_self, if_true, List.map_cons, hp, this]
          rfl
  refine (congrArg (colour interp) hcloud).trans ?_
  have hset : {z | ∃ q ∈ (exportKeys occ threshold st').map point, z = q 2} = {z | ∃ e ∈ exportKeys occ threshold st', z = point e 2} := by ext z; simp
  rw [colour_spec interp _ lo hi (by rw [hset, Ne, List.map_eq_nil_iff]; exact hlo) (by rw [hset, Ne, List.map_eq_nil_iff]; exact hhi), List.map_map]
  rfl

omit [IsStrictOrderedRing K] in
/-- **C80** (NDT maps, partial). The coloured cloud of an NDT map consists of exactly the points of the cloud without colours (C69), one for every allocated distribution, including the empty ones (missing: only the ones with points), and the colour of a
point is that of its height between the lowest and the highest of these points. -/
theorem C80_rgb_ndt_partial (k : Kind 3) (g : Geo K 3) (exp : Multiset (Pt K 3) → Bool) (ops : List (GridOp K 3))
    (st st' : St k.backend (Multiset (Pt K 3))) (h : gridRun g k.dyn exp ops (k.init _) = some st) (all : Bool) (ha : st.allocateAll k.dyn exp all = some st')
    (T : Pt K 3 → Pt K 3) (interp : K → K → K → C) :
    ∃ keys, Spec.Lists st' (fun _ => True) keys ∧
      let point := fun e : Nat × Idx 3 => T (Spec.meanOf ((st.content e.1 e.2).getD 0))
      ∀ lo hi, (keys ≠ [] → IsLeast {z | ∃ e ∈ keys, z = point e 2} lo) → (keys ≠ [] → IsGreatest {z | ∃ e ∈ keys, z = point e 2} hi) →
        rgbNdt T interp st' = keys.map fun e => (point e, interp (point e 2) lo hi) := by
  have hI : RInv k.lawful k.dyn st := (gridRun_spec k.lawful g k.dyn exp ops _ st k.init_rinv h).1
  obtain ⟨hI', hv, hk⟩ := allocateAll_spec k.lawful k.dyn exp all st st' hI ha
  refine ⟨st'.itemKeys, ⟨itemKeys_nodup k.lawful st' hI'.inv.store, ?_⟩, ?_⟩
  · intro c i
    rw [mem_itemKeys k.lawful st' hI'.inv.store, Option.isSome_iff_exists]
    simp
  · intro point lo hi hlo hhi
    have hcloud : st'.items.foldl (fun cloud e => cloud ++ [T (meanPoint e.2)]) [] = st'.itemKeys.map point := by
      have e1 := foldl_push (fun e : Idx 3 × Multiset (Pt K 3) => some (T (meanPoint e.2))) st'.items []
      refine e1.trans ?_
      rw [List.nil_append, items_eq k.lawful st' hI'.inv.store, List.filterMap_map, List.filterMap_eq_map'.symm]
      refine List.filterMap_congr fun e _ => ?_
      show some (T (meanPoint ((st'.content e.1 e.2).getD default))) = some (T (Spec.meanOf ((st.content e.1 e.2).getD default)))
      rw [hv]; rfl
    unfold rgbNdt
    rw [hcloud]
    have hset : {z | ∃ q ∈ st'.itemKeys.map point, z = q 2} = {z | ∃ e ∈ st'.itemKeys, z = point e 2} := by ext z; simp
    rw [colour_spec interp _ lo hi (by rw [hset, Ne, List.map_eq_nil_iff]; exact hlo) (by rw [hset, Ne, List.map_eq_nil_iff]; exact hhi), List.map_map]
    rfl

end

/-- **C80** (refuted for NDT maps). A map with the single point (3/4, 3/4, 3/4), exported with `allocate_all`: the colour scale reaches from the height 0 of the map origin to the height of the point, and the cloud has points which are the mean of
no points. -/
theorem C80_empty_distributions_refuted :
    gridRun geo3 false (fun s => s.card ≠ 0) onePointOps (kind3.init _) = some onePointMap ∧ onePointMap.allocateAll false (fun s => s.card ≠ 0) true = some onePointAll ∧
    (rgbNdt id (fun z lo hi => (z, lo, hi)) onePointAll).head? = some (![3/4, 3/4, 3/4], 3/4, 0, 3/4) ∧
    ∃ e ∈ rgbNdt id (fun z lo hi => (z, lo, hi)) onePointAll, e.1 = ![0, 0, 0] :=
  ⟨(Option.some_get _).symm, (Option.some_get _).symm, by decide +kernel, by decide +kernel⟩

/-- Non-vacuity of C80 for occupancy maps: the hypotheses are met by a map with and without data in its distributions; points are exported, not all. -/
example : occRun (occFlavour ℚ 3) geo3 false (fun _ _ => []) (fun _ => true) [.insert scan3] (kind3.init _) = some occMap3 ∧
    occMap3.allocateAll false (fun _ => true) true = some occAll3 ∧
    0 < (rgbOcc id (fun z lo hi => (z, lo, hi)) (fun _ => 1) 0 occAll3).length ∧ (rgbOcc id (fun z lo hi => (z, lo, hi)) (fun _ => 1) 0 occAll3).length < occMap3.items.length :=
  ⟨(Option.some_get _).symm, (Option.some_get _).symm, by decide +kernel, by decide +kernel⟩

end Ndt
