import Verif.Proofs.Export
import Verif.Proofs.Expand
import Verif.Props.OccMap
import Verif.Props.Expand

/-! Property theorems C69–C71: exports for visualisation. -/

namespace Ndt
open St

section
variable {K : Type} [Field K] [LinearOrder K] [IsStrictOrderedRing K] [FloorRing K] {d : Nat}

/-- a point of the exported vector -/
def entry {F : Type} (cast : K → F) (p : Pt K 3) (v : K) : List F := [cast (p 0), cast (p 1), cast (p 2), cast v]

/-! ### C27: cells -/

/-- **C27** (cells). After any history, including `insertVisible`, every sample of the distribution of grid `c` at `i` stems from a point (in map coordinates) inside of its cell. -/
theorem C27_samples_in_cell {W E : Type} [AddCommMonoid W] (fl : Flavour K d W E) (k : Kind d) (g : Geo K d) (hr : 0 < g.r)
    (defRay : Pt K d → Pt K d → List (Idx d)) (exp : Occ W E → Bool) (ops : List (OccMapOp K d W E)) (st : St k.backend (Occ W E))
    (h : occRun fl g k.dyn defRay exp ops (k.init _) = some st) (c : Nat) (hc : c < 2 ^ d) (i : Idx d) (o : Occ W E) (ho : st.content c i = some o) :
    ∀ x ∈ o.samples, ∃ p, x = fl.sample p ∧ Spec.InCell g.r c i p := by
  have e0 : (k.init (Occ W E)).abs.val c i = 0 := by unfold Abs.val; rw [Kind.init_content]; rfl
  have hl := occRun_local k.lawful fl g k.dyn defRay exp c hc i ops _ st k.init_rinv h (by
    rw [e0]; intro x hx; exact absurd hx (Multiset.notMem_zero x))
  have ev : st.abs.val c i = o := by show (st.content c i).getD _ = o; rw [ho]; rfl
  rw [ev] at hl
  intro x hx
  obtain ⟨p, hp, hi⟩ := hl x hx
  exact ⟨p, hp, (C01_point_in_selected_cell hr p c i).1 hi⟩

/-! ### C69 -/

section
variable {F : Type}

omit [LinearOrder K] [IsStrictOrderedRing K] [FloorRing K] in
theorem meanPoint_eq (s : Multiset (Pt K d)) : meanPoint s = Spec.meanOf s := rfl

/-- the expansion before an export keeps the contents -/
theorem allocateAll_spec {D : Type} [Inhabited D] {B : Backend d} (L : B.Lawful) (dyn : Bool) (exp : D → Bool) (all : Bool) (st st' : St B D) (hI : RInv L dyn st)
    (h : st.allocateAll dyn exp all = some st') :
    RInv L dyn st' ∧ (∀ c k, (st'.content c k).getD default = (st.content c k).getD default) ∧
      (∀ c k s, st.content c k = some s → st'.content c k = some s) := by
  unfold allocateAll at h
  cases all with
  | false =>
    simp only [Bool.false_eq_true, if_false, Option.some.injEq] at h
    subst h
    exact ⟨hI, fun _ _ => rfl, fun _ _ _ h => h⟩
  | true =>
    rw [if_pos rfl] at h
    obtain ⟨h1, hG, _⟩ := allocPartials_flags L dyn exp st st' hI h
    exact ⟨h1, fun c i => hG.val c i, fun c i s hs => hG.content c i s hs⟩

/-- the distributions exported by `cloudOcc`, in order -/
def exportKeys {K : Type} [LinearOrder K] {E : Type} {B : Backend d} (occ : Occ Nat E → K) (threshold : K) (st : St B (Occ Nat E)) : List (Nat × Idx d) :=
  st.itemKeys.filter fun e => (((st.content e.1 e.2).getD default).data.isSome && !decide (occ ((st.content e.1 e.2).getD default) < threshold))

theorem cloudOcc_keys (k : Kind 3) (g : Geo K 3) (hr : 0 < g.r) (defRay : Pt K 3 → Pt K 3 → List (Idx 3)) (exp : Occ Nat (Pt K 3) → Bool)
    (ops : List (OccMapOp K 3 Nat (Pt K 3))) (st st' : St k.backend (Occ Nat (Pt K 3)))
    (h : occRun (occFlavour K 3) g k.dyn defRay exp ops (k.init _) = some st) (all : Bool) (ha : st.allocateAll k.dyn exp all = some st')
    (cast : K → F) (T : Pt K 3 → Pt K 3) (dens : Multiset (Pt K 3) → Pt K 3 → K) (occ : Occ Nat (Pt K 3) → K) (threshold : K) :
    let keys := exportKeys occ threshold st'
    Spec.Lists st (fun o => o.data ≠ none ∧ threshold ≤ occ o) keys ∧
      cloudOcc cast T dens occ threshold st' = keys.flatMap (fun e =>
        let o := (st.content e.1 e.2).getD Occ.new
        entry cast (T (Spec.meanOf o.samples)) (dens o.samples (Spec.meanOf o.samples) * occ o)) ∧
      ∀ e ∈ keys, ∀ o, st.content e.1 e.2 = some o → o.samples ≠ 0 ∧ Spec.InCell g.r e.1 e.2 (Spec.meanOf o.samples) := by
  have hI : RInv k.lawful k.dyn st := (occRun_inv k.lawful (occFlavour K 3) g k.dyn defRay exp ops _ st k.init_rinv h).1
  obtain ⟨hI', hv, hk⟩ := allocateAll_spec k.lawful k.dyn exp all st st' hI ha
  set sel : Occ Nat (Pt K 3) → Option (Pt K 3 × K) := fun o => if occ o < threshold then none else
    o.data.map fun s => (T (meanPoint s), dens s (meanPoint s) * occ o) with hsel
  have hshow : ∀ o, (sel o).isSome = true ↔ o.data ≠ none ∧ threshold ≤ occ o := by
    intro o
    simp only [hsel]
    by_cases ht : occ o < threshold
    · rw [if_pos ht]; simp [not_le.2 ht]
    · rw [if_neg ht, Option.isSome_map, Option.isSome_iff_ne_none]
      exact ⟨fun h => ⟨h, not_lt.1 ht⟩, fun h => h.1⟩
  have hsame : ∀ c k o, o.data ≠ none → (st'.content c k = some o ↔ st.content c k = some o) := by
    intro c k o hd
    constructor
    · intro h1
      have := hv c k
      rw [h1, Option.getD_some] at this
      cases h2 : st.content c k with
      | none => rw [h2] at this; rw [this] at hd; exact absurd rfl hd
      | some o' => rw [h2, Option.getD_some] at this; rw [this]
    · exact hk c k o
  have hkeys : exportKeys occ threshold st' = st'.itemKeys.filter fun e => (sel ((st'.content e.1 e.2).getD default)).isSome := by
    unfold exportKeys
    refine List.filter_congr fun e _ => ?_
    rw [Bool.eq_iff_iff, hshow, Bool.and_eq_true, Option.isSome_iff_ne_none]
    simp
  intro keys
  rw [show keys = _ from hkeys]
  refine ⟨⟨(itemKeys_nodup k.lawful st' hI'.inv.store).filter _, ?_⟩, ?_, ?_⟩
  · intro c i
    rw [List.mem_filter, mem_itemKeys k.lawful st' hI'.inv.store]
    constructor
    · rintro ⟨⟨hc, hs⟩, hsel'⟩
      obtain ⟨o, ho⟩ := Option.isSome_iff_exists.1 hs
      rw [ho, Option.getD_some, hshow] at hsel'
      exact ⟨hc, o, (hsame c i o hsel'.1).1 ho, hsel'⟩
    · rintro ⟨hc, o, ho, hP⟩
      have ho' := hk c i o ho
      exact ⟨⟨hc, by rw [ho']; rfl⟩, by rw [ho', Option.getD_some, hshow]; exact hP⟩
  · have e1 : cloudOcc cast T dens occ threshold st' = st'.items.foldl (fun tmp e => match sel e.2 with | none => tmp | some y => pushPoint cast tmp y.1 y.2) [] := by
      unfold cloudOcc
      congr 1
      funext tmp e
      simp only [hsel]
      by_cases ht : occ e.2 < threshold
      · rw [if_pos ht, if_pos ht]
      · rw [if_neg ht, if_neg ht]
        cases e.2.data <;> rfl
    refine e1.trans ((pushPoint_fold cast (fun e : Idx 3 × Occ Nat (Pt K 3) => sel e.2) st'.items []).trans ?_)
    rw [List.nil_append, items_eq k.lawful st' hI'.inv.store, List.filterMap_map]
    have hgen : ∀ l : List (Nat × Idx 3), ((l.filterMap ((fun e : Idx 3 × Occ Nat (Pt K 3) => sel e.2) ∘
        fun e => (e.2, (st'.content e.1 e.2).getD default))).flatMap fun y => [cast (y.1 0), cast (y.1 1), cast (y.1 2), cast y.2]) =
        (l.filter fun e => (sel ((st'.content e.1 e.2).getD default)).isSome).flatMap (fun e =>
          let o := (st.content e.1 e.2).getD Occ.new
          entry cast (T (Spec.meanOf o.samples)) (dens o.samples (Spec.meanOf o.samples) * occ o)) := by
      intro l
      induction l with
      | nil => rfl
      | cons e l ih =>
        rw [List.filterMap_cons, Function.comp_apply, List.filter_cons]
        cases hs : sel ((st'.content e.1 e.2).getD default) with
        | none => simp only [Option.isSome_none, Bool.false_eq_true, if_false]; exact ih
        | some y =>
          simp only [Option.isSome_some, if_true, List.flatMap_cons]
          rw [ih]
          congr 1
          rw [show ((st.content e.1 e.2).getD Occ.new) = (st'.content e.1 e.2).getD default from (hv e.1 e.2).symm]
          generalize (st'.content e.1 e.2).getD default = o at hs
          simp only [hsel] at hs
          by_cases ht : occ o < threshold
          · rw [if_pos ht] at hs; cases hs
          · rw [if_neg ht] at hs
            obtain ⟨s, hd, rfl⟩ := Option.map_eq_some_iff.1 hs
            have : o.samples = s := by unfold Occ.samples; rw [hd]
            rw [this]; rfl
    exact hgen _
  · intro e he o ho
    obtain ⟨he, hs⟩ := List.mem_filter.1 he
    have hc := ((mem_itemKeys k.lawful st' hI'.inv.store e.1 e.2).1 he).1
    rw [hk e.1 e.2 o ho, Option.getD_some, hshow] at hs
    have hne : o.samples ≠ 0 := fun h0 => hs.1 ((C27_no_empty_distribution (occFlavour K 3) k g defRay exp ops st h e.1 hc e.2 o ho).2 h0)
    refine ⟨hne, meanPoint_inCell g.r e.1 e.2 _ hne ?_⟩
    intro p hp
    obtain ⟨q, hq, hin⟩ := C27_samples_in_cell (occFlavour K 3) k g hr defRay exp ops st h e.1 hc e.2 o ho p hp
    rw [hq]; exact hin

/-- **C69** (occupancy maps). For every reachable occupancy map, every transformation, threshold, density, and with or without allocation of all neighbours, the exported cloud consists of
exactly one point for every distribution with data whose occupancy is not below the threshold. The point is the transformed mean, which lies in the cell of the distribution, with the intensity
density times occupancy. -/
theorem C69_cloud_occupancy (k : Kind 3) (g : Geo K 3) (hr : 0 < g.r) (defRay : Pt K 3 → Pt K 3 → List (Idx 3)) (exp : Occ Nat (Pt K 3) → Bool)
    (ops : List (OccMapOp K 3 Nat (Pt K 3))) (st st' : St k.backend (Occ Nat (Pt K 3)))
    (h : occRun (occFlavour K 3) g k.dyn defRay exp ops (k.init _) = some st) (all : Bool) (ha : st.allocateAll k.dyn exp all = some st')
    (cast : K → F) (T : Pt K 3 → Pt K 3) (dens : Multiset (Pt K 3) → Pt K 3 → K) (occ : Occ Nat (Pt K 3) → K) (threshold : K) :
    ∃ keys, Spec.Lists st (fun o => o.data ≠ none ∧ threshold ≤ occ o) keys ∧
      cloudOcc cast T dens occ threshold st' = keys.flatMap (fun e =>
        let o := (st.content e.1 e.2).getD Occ.new
        entry cast (T (Spec.meanOf o.samples)) (dens o.samples (Spec.meanOf o.samples) * occ o)) ∧
      ∀ e ∈ keys, ∀ o, st.content e.1 e.2 = some o → o.samples ≠ 0 ∧ Spec.InCell g.r e.1 e.2 (Spec.meanOf o.samples) := ⟨_, cloudOcc_keys k g hr defRay exp ops st st' h all ha cast T dens occ threshold⟩

/-- **C69** (NDT maps, partial). The exported cloud of an NDT map consists of exactly one point for every allocated distribution, including the empty ones (missing: only the ones with points). A distribution with points is
exported at its transformed mean, which lies in its cell; an empty one is exported at the transformed map origin. -/
theorem C69_cloud_ndt_partial (k : Kind 3) (g : Geo K 3) (hr : 0 < g.r) (exp : Multiset (Pt K 3) → Bool) (ops : List (GridOp K 3))
    (st st' : St k.backend (Multiset (Pt K 3))) (h : gridRun g k.dyn exp ops (k.init _) = some st) (all : Bool) (ha : st.allocateAll k.dyn exp all = some st')
    (cast : K → F) (T : Pt K 3 → Pt K 3) (dens : Multiset (Pt K 3) → Pt K 3 → K) :
    ∃ keys, Spec.Lists st' (fun _ => True) keys ∧
      cloudNdt cast T dens st' = keys.flatMap (fun e =>
        let s := (st.content e.1 e.2).getD 0
        entry cast (T (Spec.meanOf s)) (dens s (Spec.meanOf s))) ∧
      ∀ e ∈ keys, ((st.content e.1 e.2).getD 0 ≠ 0 → Spec.InCell g.r e.1 e.2 (Spec.meanOf ((st.content e.1 e.2).getD 0))) ∧
        ((st.content e.1 e.2).getD 0 = 0 → Spec.meanOf ((st.content e.1 e.2).getD 0) = 0) := by
  classical
  have hI : RInv k.lawful k.dyn st := (gridRun_spec k.lawful g k.dyn exp ops _ st k.init_rinv h).1
  obtain ⟨hI', hv, hk⟩ := allocateAll_spec k.lawful k.dyn exp all st st' hI ha
  refine ⟨st'.itemKeys, ⟨itemKeys_nodup k.lawful st' hI'.inv.store, ?_⟩, ?_, ?_⟩
  · intro c i
    rw [mem_itemKeys k.lawful st' hI'.inv.store, Option.isSome_iff_exists]
    simp
  · have e1 : cloudNdt cast T dens st' = st'.items.foldl (fun tmp e => match (some (T (meanPoint e.2), dens e.2 (meanPoint e.2)) : Option (Pt K 3 × K)) with
        | none => tmp | some y => pushPoint cast tmp y.1 y.2) [] := rfl
    rw [e1, pushPoint_fold cast (fun e : Idx 3 × Multiset (Pt K 3) => some (T (meanPoint e.2), dens e.2 (meanPoint e.2))), List.nil_append,
      items_eq k.lawful st' hI'.inv.store, List.filterMap_map]
    rw [show ((fun e : Idx 3 × Multiset (Pt K 3) => some (T (meanPoint e.2), dens e.2 (meanPoint e.2))) ∘ fun e : Nat × Idx 3 => (e.2, (st'.content e.1 e.2).getD default)) =
      fun e => some (T (meanPoint ((st'.content e.1 e.2).getD default)), dens ((st'.content e.1 e.2).getD default) (meanPoint ((st'.content e.1 e.2).getD default))) from rfl,
      List.filterMap_eq_map', List.flatMap_map]
    refine List.flatMap_congr fun e _ => ?_
    rw [hv]
    rfl
  · intro e he
    have hc := ((mem_itemKeys k.lawful st' hI'.inv.store e.1 e.2).1 he).1
    constructor
    · intro h0
      refine meanPoint_inCell g.r e.1 e.2 _ h0 ?_
      intro p hp
      rw [C10_contents_exact k g hr exp ops st h e.1 hc e.2, Multiset.mem_filter] at hp
      exact hp.2
    · intro h0
      rw [h0]; funext a; simp [Spec.meanOf]

end
end

/-- a map with one inserted point -/
def onePointOps : List (GridOp ℚ 3) := [.insert id [![3/4, 3/4, 3/4]]]
def geo3 : Geo ℚ 3 := { r := 1, toMap := id, normal := fun _ => true }
def kind3 : Kind 3 := .static (fun _ => 2) (fun _ => 0)

def onePointMap : St (arrayBackend 3) (Multiset (Pt ℚ 3)) := (gridRun geo3 false (fun s => s.card ≠ 0) onePointOps (kind3.init _)).get (by decide +kernel)
def onePointAll : St (arrayBackend 3) (Multiset (Pt ℚ 3)) := (onePointMap.allocateAll false (fun s => s.card ≠ 0) true).get (by decide +kernel)

theorem onePoint_cloud : ((cloudNdt id id (fun _ _ => (1 : ℚ)) onePointAll).drop 4).take 4 = [0, 0, 0, 1] := by decide +kernel

/-- **C69** (refuted for NDT maps). A map with a single inserted point, exported with `allocate_all`: the second exported point is not the mean of any distribution with points. -/
theorem C69_empty_distributions_refuted :
    gridRun geo3 false (fun s => s.card ≠ 0) onePointOps (kind3.init _) = some onePointMap ∧ onePointMap.allocateAll false (fun s => s.card ≠ 0) true = some onePointAll ∧
    ∀ c k s, c < 2 ^ 3 → onePointMap.content c k = some s → s ≠ 0 →
      ((cloudNdt id id (fun _ _ => (1 : ℚ)) onePointAll).drop 4).take 4 ≠ entry id (Spec.meanOf s) 1 := by
  have h1 : gridRun geo3 false (fun s => s.card ≠ 0) onePointOps (kind3.init _) = some onePointMap := (Option.some_get _).symm
  refine ⟨h1, (Option.some_get _).symm, ?_⟩
  intro c k s hc hs h0
  classical
  have h10 := C10_contents_exact kind3 geo3 (by decide) _ onePointOps onePointMap h1 c hc k
  have this : s = _ := Eq.trans (by show s = (onePointMap.content c k).getD 0; rw [hs]; rfl) h10
  have hacc : Spec.accepted geo3 kind3 onePointOps ≤ {![3/4, 3/4, 3/4]} := by
    simp only [onePointOps, Spec.accepted, Spec.acceptedPoints, add_zero]
    exact (Multiset.filter_le _ _).trans (le_of_eq rfl)
  have hs1 : s = {![3/4, 3/4, 3/4]} := by
    have hle : s ≤ {![3/4, 3/4, 3/4]} := by rw [this]; exact (Multiset.filter_le _ _).trans hacc
    rcases Multiset.le_singleton.1 hle with h | h
    · exact absurd h h0
    · exact h
  rw [hs1]
  rw [onePoint_cloud]
  intro h
  have := (List.cons.inj h).1
  norm_num [Spec.meanOf] at this

/-! ### C70 -/

section
variable {F : Type}

theorem read_elem (C : Float32 F) (l : List F) (n : Nat) (x : F) (h : l[n]? = some x) : ((l.flatMap C.enc).drop (n * 4)).take 4 = C.enc x := by
  induction l generalizing n with
  | nil => simp at h
  | cons y l ih =>
    rw [List.flatMap_cons]
    cases n with
    | zero =>
      simp only [List.getElem?_cons_zero, Option.some.injEq] at h
      subst h
      rw [Nat.zero_mul, List.drop_zero, List.take_append_of_le_length (by rw [C.len]), List.take_of_length_le (by rw [C.len])]
    | succ n =>
      rw [List.getElem?_cons_succ] at h
      rw [show (n + 1) * 4 = (C.enc y).length + n * 4 by rw [C.len]; omega, List.drop_append, List.drop_of_length_le (by omega), List.nil_append]
      rw [show (C.enc y).length + n * 4 - (C.enc y).length = n * 4 by omega]
      exact ih n h

/-- the vector `tmp` of a list of points with intensities -/
def flatPoints (pts : List (F × F × F × F)) : List F := pts.flatMap fun p => [p.1, p.2.1, p.2.2.1, p.2.2.2]

theorem flatPoints_length (pts : List (F × F × F × F)) : (flatPoints pts).length = 4 * pts.length := by
  induction pts with
  | nil => rfl
  | cons p l ih =>
    unfold flatPoints at ih ⊢
    rw [List.flatMap_cons, List.length_append, ih, List.length_cons (as := l)]
    show 4 + _ = _
    omega

theorem flatPoints_get (pts : List (F × F × F × F)) (i : Nat) (p : F × F × F × F) (h : pts[i]? = some p) (j : Nat) (hj : j < 4) :
    (flatPoints pts)[4 * i + j]? = [p.1, p.2.1, p.2.2.1, p.2.2.2][j]? := by
  induction pts generalizing i with
  | nil => simp at h
  | cons q l ih =>
    unfold flatPoints at ih ⊢
    rw [List.flatMap_cons]
    cases i with
    | zero =>
      simp only [List.getElem?_cons_zero, Option.some.injEq] at h
      subst h
      rw [Nat.mul_zero, Nat.zero_add, List.getElem?_append_left (by simpa using hj)]
    | succ i =>
      rw [List.getElem?_cons_succ] at h
      rw [List.getElem?_append_right (by show 4 ≤ _; omega)]
      rw [show 4 * (i + 1) + j - [q.1, q.2.1, q.2.2.1, q.2.2.2].length = 4 * i + j by show _ - 4 = _; omega]
      exact ih i h

theorem flatMessage_length (C : Float32 F) (l : List F) : (l.flatMap C.enc).length = 4 * l.length := by
  induction l with
  | nil => rfl
  | cons x l ih => rw [List.flatMap_cons, List.length_append, C.len, ih, List.length_cons]; omega

/-- **C70** (partial). A message with `n < 2^28` points announces `n` points in one row, its row length and the length of its data fit, and a receiver reads the coordinates and the intensity of every point from the four
fields. Missing: the number of elements of a field, see `C70_field_count_refuted`. -/
theorem C70_layout_partial (C : Float32 F) (pts : List (F × F × F × F)) (hn : pts.length < 2 ^ 28) :
    let m := cloudMessage C (flatPoints pts)
    m.width = pts.length ∧ m.height = 1 ∧ m.rowStep = m.width * m.pointStep ∧ m.data.length = m.rowStep * m.height ∧
    m.fields.map PointField.name = ["x", "y", "z", "intensity"] ∧ (∀ f ∈ m.fields, f.offset + 4 ≤ m.pointStep) ∧
    ∀ i p, pts[i]? = some p →
      Spec.readField C m "x" i = some p.1 ∧ Spec.readField C m "y" i = some p.2.1 ∧ Spec.readField C m "z" i = some p.2.2.1 ∧ Spec.readField C m "intensity" i = some p.2.2.2 := by
  intro m
  have hw : m.width = pts.length := by
    show (flatPoints pts).length / 4 % 2 ^ 32 = _
    rw [flatPoints_length, Nat.mul_div_cancel_left _ (by decide), Nat.mod_eq_of_lt (by omega)]
  have hrow : m.rowStep = 16 * pts.length := by
    show 4 * (flatPoints pts).length % 2 ^ 32 = _
    rw [flatPoints_length, Nat.mod_eq_of_lt (by omega)]; omega
  refine ⟨hw, rfl, ?_, ?_, rfl, ?_, ?_⟩
  · rw [hrow, hw]; exact Nat.mul_comm _ _
  · rw [hrow]
    show ((flatPoints pts).flatMap C.enc).length = 16 * pts.length * 1
    rw [flatMessage_length, flatPoints_length]; omega
  · intro f hf
    obtain ⟨e, he, rfl⟩ := List.mem_map.1 hf
    simp only [List.zipIdx_cons, List.zipIdx_nil, List.mem_cons, List.not_mem_nil, or_false] at he
    rcases he with rfl | rfl | rfl | rfl <;> (show _ ≤ 16; norm_num)
  · intro i p hp
    have key : ∀ (j : Nat) (x : F), j < 4 → [p.1, p.2.1, p.2.2.1, p.2.2.2][j]? = some x → C.dec ((m.data.drop (i * m.pointStep + j * 4)).take 4) = x := by
      intro j x hj hx
      have h1 := flatPoints_get pts i p hp j hj
      rw [hx] at h1
      have h2 := read_elem C (flatPoints pts) (4 * i + j) x h1
      rw [show (4 * i + j) * 4 = i * m.pointStep + j * 4 by show _ = i * 16 + j * 4; omega] at h2
      show C.dec ((((flatPoints pts).flatMap C.enc).drop (i * m.pointStep + j * 4)).take 4) = x
      rw [h2, C.dec_enc]
    exact ⟨congrArg some (key 0 _ (by decide) rfl), congrArg some (key 1 _ (by decide) rfl), congrArg some (key 2 _ (by decide) rfl), congrArg some (key 3 _ (by decide) rfl)⟩

/-- **C70** (refuted). As soon as there are two points, the message is not consistent: every field claims as many elements as there are points, and so exceeds the point it belongs to. -/
theorem C70_field_count_refuted (C : Float32 F) (pts : List (F × F × F × F)) (hn : pts.length < 2 ^ 28) (h2 : 2 ≤ pts.length) : ¬ Spec.Consistent (cloudMessage C (flatPoints pts)) := by
  rintro ⟨_, _, h⟩
  have := h { name := "intensity", offset := 12, count := (flatPoints pts).length / 4 % 2 ^ 32 } (by simp [cloudMessage])
  simp only [flatPoints_length, Nat.mul_div_cancel_left _ (show 0 < 4 by decide), Nat.mod_eq_of_lt (show pts.length < 2 ^ 32 by omega)] at this
  change _ ≤ 16 at this
  omega

/-- the vectors of C69 are lists of points -/
theorem entries_flat {K X : Type} (cast : K → F) (keys : List X) (p : X → Pt K 3) (v : X → K) :
    (keys.flatMap fun e => [cast (p e 0), cast (p e 1), cast (p e 2), cast (v e)]) = flatPoints (keys.map fun e => (cast (p e 0), cast (p e 1), cast (p e 2), cast (v e))) := by
  unfold flatPoints
  rw [List.flatMap_map]

end

/-! ### C71 -/

section
variable {K : Type} [Field K] [LinearOrder K] {d : Nat} {Q C V : Type}

theorem markers_spec {X : Type} (D : VizDim K d) (v : Viz K d Q C V) (f : X → Option (K × Multiset (Pt K d))) (l : List X)
    (h : ∀ e ∈ l, ∃ y, f e = some y ∧ (v.eigen y.2).isSome = true) (n : Nat) :
    (((l.filterMap f).zipIdx n).filterMap fun y => Spec.markerFor D v y.2 y.1.1 y.1.2).length = l.length ∧
    ∀ (i : Nat) e, l[i]? = some e → ∃ y, f e = some y ∧
      (((l.filterMap f).zipIdx n).filterMap fun y => Spec.markerFor D v y.2 y.1.1 y.1.2)[i]? = Spec.markerFor D v (n + i) y.1 y.2 := by
  induction l generalizing n with
  | nil => exact ⟨rfl, fun i e h => by simp at h⟩
  | cons x l ih =>
    obtain ⟨y, hy, hs⟩ := h x (List.mem_cons_self ..)
    obtain ⟨z, hz⟩ := Option.isSome_iff_exists.1 hs
    obtain ⟨h1, h2⟩ := ih (fun e he => h e (List.mem_cons_of_mem _ he)) (n + 1)
    rw [List.filterMap_cons, hy, List.zipIdx_cons, List.filterMap_cons]
    have hm : ∃ m, Spec.markerFor D v n y.1 y.2 = some m := ⟨_, by unfold Spec.markerFor; rw [hz]; rfl⟩
    obtain ⟨m, hm⟩ := hm
    simp only [hm]
    refine ⟨by rw [List.length_cons, List.length_cons, h1], ?_⟩
    intro i e he
    cases i with
    | zero =>
      simp only [List.getElem?_cons_zero, Option.some.injEq] at he
      subst he
      exact ⟨y, hy, by rw [List.getElem?_cons_zero, Nat.add_zero, hm]⟩
    | succ i =>
      rw [List.getElem?_cons_succ] at he
      obtain ⟨w, hw, he'⟩ := h2 i e he
      exact ⟨w, hw, by rw [List.getElem?_cons_succ, he']; congr 1; omega⟩

theorem filter_shown {X Y : Type} (f : X → Option Y) (p : Y → Bool) (l : List X) :
    (l.filterMap f).filter p = (l.filter fun e => (f e).any p).filterMap f := by
  induction l with
  | nil => rfl
  | cons x l ih =>
    rw [List.filterMap_cons, List.filter_cons]
    cases hx : f x with
    | none => simpa using ih
    | some y =>
      simp only [Option.any_some, List.filter_cons]
      by_cases hp : p y = true
      · rw [if_pos hp, if_pos hp, List.filterMap_cons, hx, ih]
      · rw [if_neg hp, if_neg hp, ih]

/-- the general form of C71: `sel` selects the distributions to be shown -/
theorem markers_of {Dd : Type} [Inhabited Dd] {B : Backend d} (L : B.Lawful) (st : St B Dd) (hI : ∀ c, L.Inv (st.storage c)) (D : VizDim K d) (v : Viz K d Q C V)
    (sel : Dd → Option (K × Multiset (Pt K d))) (marker0 : Marker K Q C) (h0 : marker0.id = 0) (dst : List (Marker K Q C)) :
    ∃ keys ms, Spec.Lists st (fun s => ∃ y, sel s = some y ∧ v.eigen y.2 ≠ none) keys ∧
      (st.items.foldl (fun x e => match sel e.2 with | none => x | some y => markerItem D v y.1 y.2 x) (markerStart marker0 dst)).1 =
        dst ++ { marker0 with action := .deleteAll } :: ms ∧
      ms.length = keys.length ∧
      ∀ i c k, keys[i]? = some (c, k) → ∃ s y, st.content c k = some s ∧ sel s = some y ∧ ms[i]? = Spec.markerFor D v (i + 1) y.1 y.2 := by
  set f : Nat × Idx d → Option (K × Multiset (Pt K d)) := fun e => sel ((st.content e.1 e.2).getD default) with hf
  set keys := st.itemKeys.filter fun e => (f e).any fun y => (v.eigen y.2).isSome with hk
  have hmem : ∀ c k, (c, k) ∈ keys ↔ c < 2 ^ d ∧ ∃ s, st.content c k = some s ∧ ∃ y, sel s = some y ∧ v.eigen y.2 ≠ none := by
    intro c k
    rw [hk, List.mem_filter, mem_itemKeys L st hI]
    constructor
    · rintro ⟨⟨hc, hs⟩, h⟩
      obtain ⟨s, hs⟩ := Option.isSome_iff_exists.1 hs
      obtain ⟨h1, h⟩ := (Option.any_eq_true_iff_get _ _).1 h
      have hy := (Option.some_get h1).symm
      generalize (f (c, k)).get h1 = y at hy h
      simp only [hf, hs, Option.getD_some] at hy
      exact ⟨hc, s, hs, y, hy, Option.isSome_iff_ne_none.1 h⟩
    · rintro ⟨hc, s, hs, y, hy, h⟩
      refine ⟨⟨hc, by rw [hs]; rfl⟩, ?_⟩
      simp only [hf, hs, Option.getD_some, hy, Option.any_some]
      exact Option.isSome_iff_ne_none.2 h
  have hall : ∀ e ∈ keys, ∃ y, f e = some y ∧ (v.eigen y.2).isSome = true := by
    rintro ⟨c, k⟩ he
    obtain ⟨_, s, hs, y, hy, h⟩ := (hmem c k).1 he
    exact ⟨y, by simp only [hf, hs, Option.getD_some, hy], Option.isSome_iff_ne_none.2 h⟩
  have hspec := markers_spec D v f keys hall 1
  refine ⟨keys, _, ⟨(itemKeys_nodup L st hI).filter _, hmem⟩, ?_, hspec.1, ?_⟩
  · refine (markerItem_fold D v (fun e : Idx d × Dd => sel e.2) st.items (markerStart marker0 dst) rfl).trans ?_
    rw [items_eq L st hI, List.filterMap_map]
    have e1 : ((fun e : Idx d × Dd => sel e.2) ∘ fun e : Nat × Idx d => (e.2, (st.content e.1 e.2).getD default)) = f := rfl
    rw [e1, filter_shown, ← hk]
    show (dst ++ [_]) ++ ((keys.filterMap f).zipIdx (marker0.id + 1)).filterMap _ = _
    rw [h0, List.append_assoc]
    rfl
  · intro i c k he
    obtain ⟨_, s, hs, _⟩ := (hmem c k).1 (List.mem_of_getElem? he)
    obtain ⟨y, hy, h⟩ := hspec.2 i (c, k) he
    refine ⟨s, y, hs, ?_, by rw [h, Nat.add_comm]⟩
    simpa only [hf, hs, Option.getD_some] using hy

end

section
variable {K : Type} [Field K] [LinearOrder K] [IsStrictOrderedRing K] [FloorRing K] {d : Nat} {Q C V : Type}

omit [IsStrictOrderedRing K] in
/-- **C71** (NDT maps). For every reachable NDT map the conversion appends one marker that deletes all earlier ones and then exactly one marker for every distribution that can be decomposed, numbered from 1. Every marker
depends only on its own distribution. -/
theorem C71_markers_ndt (k : Kind d) (g : Geo K d) (exp : Multiset (Pt K d) → Bool) (ops : List (GridOp K d)) (st : St k.backend (Multiset (Pt K d)))
    (h : gridRun g k.dyn exp ops (k.init _) = some st) (D : VizDim K d) (v : Viz K d Q C V) (marker0 : Marker K Q C) (h0 : marker0.id = 0) (dst : List (Marker K Q C)) :
    ∃ keys ms, Spec.Lists st (fun s => v.eigen s ≠ none) keys ∧ markersNdt D v marker0 dst st = dst ++ { marker0 with action := .deleteAll } :: ms ∧
      ms.length = keys.length ∧
      ∀ i c k, keys[i]? = some (c, k) → ∃ s, st.content c k = some s ∧ ms[i]? = Spec.markerFor D v (i + 1) 1 s := by
  have hI : RInv k.lawful k.dyn st := (gridRun_spec k.lawful g k.dyn exp ops _ st k.init_rinv h).1
  obtain ⟨keys, ms, hL, h1, h2, h3⟩ := markers_of k.lawful st hI.inv.store D v (fun s => some (1, s)) marker0 h0 dst
  refine ⟨keys, ms, ⟨hL.1, fun c k => (hL.2 c k).trans ?_⟩, h1, h2, ?_⟩
  · simp
  · intro i c k he
    obtain ⟨s, y, hs, hy, hm⟩ := h3 i c k he
    cases hy
    exact ⟨s, hs, hm⟩

omit [IsStrictOrderedRing K] in
/-- **C71** (occupancy maps). As for NDT maps, for the distributions with data whose occupancy is not below the threshold; the occupancy is the opacity of the marker. -/
theorem C71_markers_occupancy (k : Kind d) (g : Geo K d) (defRay : Pt K d → Pt K d → List (Idx d)) (exp : Occ Nat (Pt K d) → Bool)
    (ops : List (OccMapOp K d Nat (Pt K d))) (st : St k.backend (Occ Nat (Pt K d)))
    (h : occRun (occFlavour K d) g k.dyn defRay exp ops (k.init _) = some st) (D : VizDim K d) (v : Viz K d Q C V) (occ : Occ Nat (Pt K d) → K) (threshold : K)
    (marker0 : Marker K Q C) (h0 : marker0.id = 0) (dst : List (Marker K Q C)) :
    ∃ keys ms, Spec.Lists st (fun o => o.data ≠ none ∧ threshold ≤ occ o ∧ v.eigen o.samples ≠ none) keys ∧
      markersOcc D v occ threshold marker0 dst st = dst ++ { marker0 with action := .deleteAll } :: ms ∧
      ms.length = keys.length ∧
      ∀ i c k, keys[i]? = some (c, k) → ∃ o, st.content c k = some o ∧ ms[i]? = Spec.markerFor D v (i + 1) (occ o) o.samples := by
  have hI : RInv k.lawful k.dyn st := (occRun_inv k.lawful (occFlavour K d) g k.dyn defRay exp ops _ st k.init_rinv h).1
  set sel : Occ Nat (Pt K d) → Option (K × Multiset (Pt K d)) := fun o => if occ o < threshold then none else o.data.map fun s => (occ o, s) with hsel
  have hs : ∀ o y, sel o = some y ↔ o.data ≠ none ∧ threshold ≤ occ o ∧ y = (occ o, o.samples) := by
    intro o y
    simp only [hsel, Occ.samples]
    by_cases ht : occ o < threshold
    · rw [if_pos ht]; simp [not_le.2 ht]
    · rw [if_neg ht]
      cases hd : o.data with
      | none => simp
      | some s => simp [not_lt.1 ht, eq_comm]
  obtain ⟨keys, ms, hL, h1, h2, h3⟩ := markers_of k.lawful st hI.inv.store D v sel marker0 h0 dst
  refine ⟨keys, ms, ⟨hL.1, fun c k => (hL.2 c k).trans ?_⟩, Eq.trans ?_ h1, h2, ?_⟩
  · refine and_congr_right fun _ => exists_congr fun o => and_congr_right fun _ => ?_
    constructor
    · rintro ⟨y, hy, he⟩
      obtain ⟨a, b, rfl⟩ := (hs o y).1 hy
      exact ⟨a, b, he⟩
    · rintro ⟨a, b, he⟩
      exact ⟨_, (hs o _).2 ⟨a, b, rfl⟩, he⟩
  · unfold markersOcc
    congr 2
    funext x e
    simp only [hsel]
    by_cases ht : occ e.2 < threshold
    · rw [if_pos ht, if_pos ht]
    · rw [if_neg ht, if_neg ht]
      cases e.2.data <;> rfl
  · intro i c k he
    obtain ⟨o, y, ho, hy, hm⟩ := h3 i c k he
    obtain ⟨_, _, rfl⟩ := (hs o y).1 hy
    exact ⟨o, ho, hm⟩

omit [IsStrictOrderedRing K] [FloorRing K] in
/-- **C71** (scale). Whatever the eigenvalues, also negative ones or NaN, every extent of a marker is a number not less than `1e-4` (or infinite). -/
theorem C71_scale (e : K) (sqrt : Fl K → Fl K) (ev : Fl K) : (markerScale e sqrt ev).isNan = false ∧ (markerScale e sqrt ev).lt (.fin e) = false := by
  unfold markerScale stdMax
  generalize Fl.fin 2 * sqrt ev = x
  by_cases h : (Fl.fin e).lt x = true
  · rw [if_pos h]
    cases x with
    | nan => simp [Fl.lt] at h
    | inf s => cases s <;> simp_all [Fl.lt, Fl.isNan]
    | fin y =>
      simp only [Fl.lt, decide_eq_true_eq] at h
      simp [Fl.lt, Fl.isNan, h.le]
  · rw [if_neg h]
    simp [Fl.lt, Fl.isNan]

omit [IsStrictOrderedRing K] [FloorRing K] in
/-- **C71** (scale of 2D and 3D markers) -/
theorem C71_scale_all (e : K) (sqrt : Fl K → Fl K) (i : Fin 3) :
    (∀ ev, ((viz2 e).scale sqrt ev i).isNan = false ∧ ((viz2 e).scale sqrt ev i).lt (.fin e) = false) ∧
    ∀ ev, ((viz3 e).scale sqrt ev i).isNan = false ∧ ((viz3 e).scale sqrt ev i).lt (.fin e) = false := by
  constructor
  · intro ev
    unfold viz2
    dsimp only
    split
    · exact C71_scale ..
    · split
      · exact C71_scale ..
      · simp [Fl.lt, Fl.isNan]
  · intro ev
    exact C71_scale ..

omit [IsStrictOrderedRing K] [FloorRing K] in
/-- **C71** (geometry). Markers of 2D maps lie at height 0 and have the height `1e-4`, those of 3D maps lie where the distribution lies; along every axis of the distribution a marker is as long as two standard deviations (`s` is the square root of the
eigenvalue), but not shorter than `1e-4`. -/
theorem C71_geometry (e : K) (sqrt : Fl K → Fl K) :
    (∀ p, (viz2 e).position p = ![p 0, p 1, 0]) ∧ (∀ ev, (viz2 e).scale sqrt ev 2 = .fin e) ∧
    (∀ ev s, sqrt (ev 0) = .fin s → (viz2 e).scale sqrt ev 0 = .fin (max e (2 * s))) ∧ (∀ ev s, sqrt (ev 1) = .fin s → (viz2 e).scale sqrt ev 1 = .fin (max e (2 * s))) ∧
    (∀ p, (viz3 e).position p = p) ∧ ∀ i ev s, sqrt (ev i) = .fin s → (viz3 e).scale sqrt ev i = .fin (max e (2 * s)) := by
  have hm : ∀ x s, sqrt x = .fin s → markerScale e sqrt x = .fin (max e (2 * s)) := by
    intro x s h
    unfold markerScale stdMax
    rw [h]
    show (if decide (e < 2 * s) = true then Fl.fin (2 * s) else Fl.fin e) = _
    by_cases hlt : e < 2 * s
    · rw [if_pos (decide_eq_true hlt), max_eq_right hlt.le]
    · rw [if_neg (by simpa using hlt), max_eq_left (not_lt.1 hlt)]
  refine ⟨fun p => ?_, fun _ => rfl, fun ev s h => hm _ s h, fun ev s h => hm _ s h, fun _ => rfl, fun i ev s h => hm _ s h⟩
  funext i
  fin_cases i <;> rfl

end

/-! ### Non-vacuity -/

/-- a scan with two points, and rays that pass one bundle in front of the target -/
def scan3 : Scan ℚ 3 Nat where
  pose := id
  cloud := [![3/4, 3/4, 1/4], ![1/4, 3/4, 1/4]]
  ray := fun _ _ => [![1, 1, 1]]
  order := id
  order_perm := fun l => List.Perm.refl l

def occMap3 : St (arrayBackend 3) (Occ Nat (Pt ℚ 3)) :=
  (occRun (occFlavour ℚ 3) geo3 false (fun _ _ => []) (fun _ => true) [.insert scan3] (kind3.init _)).get (by decide +kernel)
def occAll3 : St (arrayBackend 3) (Occ Nat (Pt ℚ 3)) := (occMap3.allocateAll false (fun _ => true) true).get (by decide +kernel)

/-- Non-vacuity of C69 and C71 for occupancy maps: the hypotheses are met by a map with and without data in its distributions; several points and markers are exported, not all. -/
example : occRun (occFlavour ℚ 3) geo3 false (fun _ _ => []) (fun _ => true) [.insert scan3] (kind3.init _) = some occMap3 ∧
    occMap3.allocateAll false (fun _ => true) true = some occAll3 ∧
    0 < (cloudOcc id id (fun _ _ => (1 : ℚ)) (fun _ => 1) 0 occAll3).length ∧ (cloudOcc id id (fun _ _ => (1 : ℚ)) (fun _ => 1) 0 occAll3).length < 4 * occMap3.items.length :=
  ⟨(Option.some_get _).symm, (Option.some_get _).symm, by decide +kernel, by decide +kernel⟩

/-- Non-vacuity of C71 for NDT maps: there are eight markers and one that deletes the earlier ones. -/
example : (markersNdt (Q := Unit) (C := Unit) (V := Unit) (viz3 (1/10000)) ⟨id, fun s => if s.card = 0 then none else some (fun _ => .nan, ()), id, fun _ => (), id⟩ ⟨.add, 0, fun _ => 0, (), fun _ => .nan, 0, ()⟩ [] onePointMap).length = 9 := by
  decide +kernel

/-- Non-vacuity of C70: a `float` may be a 32-bit word. -/
def word32 : Float32 (Fin 4 → UInt8) where
  enc := fun x => [x 0, x 1, x 2, x 3]
  dec := fun l => ![l.getD 0 0, l.getD 1 0, l.getD 2 0, l.getD 3 0]
  len := fun _ => rfl
  dec_enc := fun x => by funext i; fin_cases i <;> rfl

example (a b c d : Fin 4 → UInt8) : ¬ Spec.Consistent (cloudMessage word32 (flatPoints [(a, b, c, d), (b, b, c, a)])) ∧
    Spec.readField word32 (cloudMessage word32 (flatPoints [(a, b, c, d), (b, b, c, a)])) "intensity" 1 = some a :=
  ⟨C70_field_count_refuted _ _ (by simp) (by simp), ((C70_layout_partial word32 [(a, b, c, d), (b, b, c, a)] (by simp)).2.2.2.2.2.2 1 _ rfl).2.2.2⟩

end Ndt
