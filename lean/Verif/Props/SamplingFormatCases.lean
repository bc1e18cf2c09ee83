import Verif.Props.InterpolationFormat
import Verif.Props.MapKinds

/-! Property theorem C114, continued: when exponents do not matter, and concrete maps. -/

namespace Ndt
open St Spec

section
variable {K : Type} [Field K] [LinearOrder K] [IsStrictOrderedRing K] [FloorRing K] {d : Nat} {T : Format}

omit [IsStrictOrderedRing K] in
theorem sampleWithF_none {D : Type} {B : Backend d} (T : Format) (R : Arith K) (dyn : Bool) (w : Nat → Fl K) (w' : Nat → K) (f : D → Fl K) (f' : D → K) (bi : Idx d) (st : St B D) :
    sampleWithF T dyn w f bi st = none ↔ sampleWithR R dyn w' f' bi st = none := by
  unfold sampleWithF sampleWithR
  split
  · split
    · cases B.get st.bundles bi <;> simp
    · simp
  · simp

/-- **C114.** For ordinary points and densities that are zero or at least `2^d` times the smallest normal number, exponents do not matter: the sample is the one of C83, whose theorems then hold
as they are. -/
theorem C114_same_sample {D : Type} [Inhabited D] (k : Kind d) (exp : D → Bool) (st : St k.backend D) (hR : MapReachable k exp st) (hT : T = .single ∨ T = .double) (ht : 1 ≤ T.t) (hdt : d ≤ T.t)
    (g : Geo K d) (h1 : (2 : K) ^ (T.emin + 1) ≤ g.r) (p : Pt K d) (hp : Ordinary T g.r (g.toMap p)) (dens : D → Pt K d → K)
    (hd : ∀ s q, (dens s q = 0 ∨ (2 : K) ^ (T.emin + d) ≤ dens s q) ∧ dens s q ≤ 1) :
    sampleNNAtF T g k.dyn (fun s q => .fin (dens s q)) p st = (sampleNNAtR (ieeeArith K T.t ht) g k.dyn dens p st).map .fin := by
  unfold sampleNNAtF sampleNNAtR
  rw [ordinary_index hT ht g.r h1 _ hp]
  cases toBundleIndexR (ieeeArith K T.t ht) g.r (g.toMap p) with
  | none => rfl
  | some bi =>
    rw [Option.bind_some, Option.bind_some]
    cases hx : sampleWithR (ieeeArith K T.t ht) k.dyn (fun _ => divCountR (ieeeArith K T.t ht) d) (fun s => dens s (g.toMap p)) bi st with
    | none => rw [Option.map_none, sampleWithF_none T (ieeeArith K T.t ht) k.dyn _ _ _ _ bi st]; exact hx
    | some x =>
      cases hv : sampleWithF T k.dyn (fun _ => divCountF K T d) (fun s => Fl.fin (dens s (g.toMap p))) bi st with
      | none => rw [sampleWithF_none T (ieeeArith K T.t ht) k.dyn _ (fun _ => divCountR (ieeeArith K T.t ht) d) _ (fun s => dens s (g.toMap p)) bi st, hx] at hv; cases hv
      | some v =>
        rw [Option.map_some]
        congr 1
        obtain ⟨r1, r2⟩ := sampleWithR_value hR _ _ _ bi x hx
        have hpos : ∀ s, 0 ≤ dens s (g.toMap p) := fun s => by
          rcases (hd s (g.toMap p)).1 with h | h
          · rw [h]
          · exact (zpow_pos two_pos _).le.trans h
        by_cases hb : bi ∈ st.bundleIndices
        · rw [(meanF_value hR hT ht hdt _ (fun s => dens s (g.toMap p)) bi hb (fun c _ => ⟨rfl, hpos _, (hd _ _).2⟩) v hv).1, r1 hb, divCountR_ieee]
          congr 1
          unfold sumR
          refine List.foldl_ext _ _ _ fun acc c _ => ?_
          have hy : 0 ≤ 1 / 2 ^ d * dens (st.abs.val c (generateIndex bi c)) (g.toMap p) := mul_nonneg (by positivity) (hpos _)
          have e : T.nearest (1 / 2 ^ d * dens (st.abs.val c (generateIndex bi c)) (g.toMap p)) = toBits T.t (1 / 2 ^ d * dens (st.abs.val c (generateIndex bi c)) (g.toMap p)) := by
            rcases (hd (st.abs.val c (generateIndex bi c)) (g.toMap p)).1 with h | h
            · rw [h, mul_zero, T.nearest_zero, toBits_zero]
            · refine T.nearest_normal ?_
              rw [abs_of_nonneg hy, one_div_mul_eq_div, le_div_iff₀ (by positivity)]
              rwa [zpow_add₀ two_ne_zero, zpow_natCast] at h
          show toBits T.t (acc + toBits T.t (T.nearest _)) = toBits T.t (acc + toBits T.t _)
          rw [e, toBits_of_hasBits T.t ht (C77_ieee T.t ht _).1]
        · rw [(sampleWithF_value hR T _ _ bi v hv).2 hb, r2 hb]

end

/-! ### C114, a map of floats -/

/-- Maps filled in a format are reachable in the sense of the theorems above. -/
theorem gridF_reachable {K : Type} [Field K] [LinearOrder K] [FloorRing K] {d : Nat} (T : Format) (g : Geo K d) (k : Kind d) (exp : Multiset (Pt K d) → Bool) : ∀ (ops : List (GridOp K d))
    (st st' : St k.backend (Multiset (Pt K d))), MapReachable k exp st → gridRunF T g k.dyn exp ops st = some st' → MapReachable k exp st'
  | [], st, st', hR, h => by cases h; exact hR
  | op :: ops, st, st', hR, h => by
    simp only [gridRunF] at h
    obtain ⟨st1, h1, h2⟩ := Option.bind_eq_some_iff.1 h
    refine gridF_reachable T g k exp ops st1 st' ?_ h2
    cases op with
    | insert pose cloud =>
      simp only [gridStepF, gridInsertF] at h1
      obtain ⟨u, hu, h1⟩ := Option.bind_eq_some_iff.1 h1
      refine .updates _ st st1 hR ?_ h1
      intro e he
      obtain ⟨x, hx, rfl⟩ := List.mem_map.1 he
      have hx' := List.mem_map_of_mem (f := Prod.fst) hx
      rw [(collectF_eq T g _ pose u cloud [] hu).1, mem_foldl_upsert] at hx'
      rcases hx' with hx' | ⟨p, hp, hpx⟩
      · exact absurd hx' (by simp)
      · show st.valid k.dyn x.1 = true
        rw [← hpx]
        exact (List.mem_filter.1 hp).2
    | core op => exact .core op st st1 hR h1

/-- the map of floats of C96 -/
def tinyMap : St (Kind.static (d := 2) ![3, 3] ![-2, -2]).backend (Multiset (Pt ℚ 2)) := tinyRun.get tinyRun_runs

theorem tinyMap_reachable : MapReachable (Kind.static (d := 2) ![3, 3] ![-2, -2]) (fun _ => true) tinyMap :=
  gridF_reachable Format.single tinyGeo (Kind.static (d := 2) ![3, 3] ![-2, -2]) (fun _ => true) [.insert id [tinyPoint, fun _ => 3]] _ _ .init (Option.some_get tinyRun_runs).symm

theorem float_pow_unit {n : Int} (h1 : -149 ≤ n) (h2 : n ≤ 0) : UnitNumber Format.single (Fl.fin ((2 : ℚ) ^ n)) := by
  have hle : (2 : ℚ) ^ n ≤ 1 := by rw [← zpow_zero (2 : ℚ)]; exact zpow_le_zpow_right₀ one_le_two h2
  refine ⟨_, rfl, ⟨⟨1, n, by norm_num [Format.single], ?_, by push_cast; ring⟩, ?_⟩, (zpow_pos two_pos _).le, hle⟩
  · show (-126 : Int) + 1 - ((24 : Nat) : Int) ≤ n
    push_cast; omega
  · rw [abs_of_pos (zpow_pos two_pos _)]
    exact hle.trans_lt (by norm_num [Format.single])

/-- **C114 (refuted part).** A positive density in every bin does not make a sample positive: densities of `2^-149`, the smallest positive float, have the mean `2^-149`, but the sample is zero; the
products with `2^-2` underflow before they are added. (Without bounds on exponents C113 holds for rounded samples too.) Above the bound of `C114_nearest_positive` they do not vanish. -/
theorem C114_positive_refuted : MapReachable (Kind.static (d := 2) ![3, 3] ![-2, -2]) (fun _ => true) tinyMap ∧ ![0, 0] ∈ tinyMap.bundleIndices ∧
    UnitNumber Format.single (Fl.fin ((2 : ℚ) ^ (-149 : Int))) ∧ sampleNNAtF Format.single tinyGeo false (fun _ _ => Fl.fin ((2 : ℚ) ^ (-149 : Int))) tinyPoint tinyMap = some (.fin 0) ∧
    sampleBilinearAtF Format.single tinyGeo false (fun _ _ => Fl.fin ((2 : ℚ) ^ (-149 : Int))) tinyPoint tinyMap = some (.fin ((2 : ℚ) ^ (-149 : Int))) ∧
    sampleNNAtF Format.single tinyGeo false (fun _ _ => Fl.fin ((2 : ℚ) ^ (-147 : Int))) tinyPoint tinyMap = some (.fin ((2 : ℚ) ^ (-147 : Int))) :=
  ⟨tinyMap_reachable, by decide +kernel, float_pow_unit (by norm_num) (by norm_num), by decide +kernel, by decide +kernel, by decide +kernel⟩

/-- densities of 1/2 in bins with one point, of `2^-147` in others -/
def halfDens : Multiset (Pt ℚ 2) → Pt ℚ 2 → Fl ℚ := fun s _ => if s.card = 1 then .fin ((2 : ℚ) ^ (-1 : Int)) else .fin ((2 : ℚ) ^ (-147 : Int))

/-- Non-vacuity of `C114_nearest_unit`, `C114_nearest_error`, `C114_nearest_positive`, `C114_bilinear_bounds`, `C114_bilinear_evidence`: that map with these densities. -/
example : (∀ (s : Multiset (Pt ℚ 2)) (q : Pt ℚ 2), UnitNumber Format.single (halfDens s q)) ∧ finiteIndexF Format.single tinyGeo.r (tinyGeo.toMap tinyPoint) = some ![0, 0] ∧
    ![0, 0] ∈ tinyMap.bundleIndices ∧ 2 ≤ Format.single.t ∧ sampleNNAtF Format.single tinyGeo false halfDens tinyPoint tinyMap = some (.fin (3 / 8)) ∧
    sampleBilinearAtF Format.single tinyGeo false halfDens tinyPoint tinyMap = some (.fin (1 / 2)) := by
  refine ⟨fun s q => ?_, tiny_index.1, by decide +kernel, by decide, by decide +kernel, by decide +kernel⟩
  unfold halfDens
  split <;> exact float_pow_unit (by norm_num) (by norm_num)

/-- densities that are NaN in bins with two points -/
def nanDens : Multiset (Pt ℚ 2) → Pt ℚ 2 → Fl ℚ := fun s _ => if s.card = 2 then .nan else .fin ((2 : ℚ) ^ (0 : Int))

/-- Non-vacuity of `C114_nearest_nan` and `C114_bilinear_nan`: the same map, where one bin of the bundle has two points. The weight of that bin is zero at the point. -/
example : (∀ (s : Multiset (Pt ℚ 2)) (q : Pt ℚ 2), nanDens s q = .nan ∨ UnitNumber Format.single (nanDens s q)) ∧
    sampleNNAtF Format.single tinyGeo false nanDens tinyPoint tinyMap = some .nan ∧ sampleBilinearAtF Format.single tinyGeo false nanDens tinyPoint tinyMap = some .nan := by
  refine ⟨fun s q => ?_, by decide +kernel, by decide +kernel⟩
  unfold nanDens
  split
  · exact Or.inl rfl
  · exact Or.inr (float_pow_unit (by norm_num) (by norm_num))

/-- Non-vacuity of `C114_same_sample`: ordinary points and densities of 0 or 1/2. -/
example : (2 : ℚ) ^ (Format.single.emin + 1) ≤ fieldGeo.r ∧ Ordinary Format.single fieldGeo.r (fieldGeo.toMap fun _ => 1 / 4) ∧
    (∀ s : Multiset (Pt ℚ 1), ((if s.card = 1 then 1 / 2 else 0 : ℚ) = 0 ∨ (2 : ℚ) ^ (Format.single.emin + ((1 : Nat) : Int)) ≤ (if s.card = 1 then 1 / 2 else 0 : ℚ)) ∧ (if s.card = 1 then 1 / 2 else 0 : ℚ) ≤ 1) ∧
    sampleNNAtF Format.single fieldGeo fieldKind.dyn (fun (s : Multiset (Pt ℚ 1)) _ => .fin (if s.card = 1 then 1 / 2 else 0)) (fun _ => 1 / 4) (kindN.get kindN_runs) = some (.fin (1 / 4)) := by
  refine ⟨by norm_num [Format.single, fieldGeo], Or.inr ?_, fun s => ?_, by decide +kernel⟩
  · unfold Spec.NoSubnormal; decide +kernel
  · split
    · exact ⟨Or.inr (by norm_num [Format.single]), by norm_num⟩
    · exact ⟨Or.inl rfl, by norm_num⟩

/-- Non-vacuity of `C114_bilinear_error`: the same map; the two bins of the bundle hold one point and none, the densities are 1/2 and `2^-147`, and the sample is the interpolation up to one rounding. -/
example : (2 : ℚ) ^ (Format.single.emin + 1) ≤ fieldGeo.r ∧ fieldGeo.r ≤ (2 : ℚ) ^ (-Format.single.emin) ∧ toBits Format.single.t fieldGeo.r = fieldGeo.r ∧
    finiteIndexF Format.single fieldGeo.r (fieldGeo.toMap fun _ => 3 / 8) = some ![0] ∧ Spec.InClosedBundle fieldGeo.r ![0] (fieldGeo.toMap fun _ => 3 / 8) ∧
    (∀ i, |fieldGeo.toMap (fun _ => 3 / 8) i| / (fieldGeo.r / 2) ≤ 1) ∧ ![0] ∈ (kindN.get kindN_runs).bundleIndices ∧
    sampleBilinearAtF Format.single fieldGeo fieldKind.dyn (fun (s : Multiset (Pt ℚ 1)) _ => .fin (if s.card = 1 then 1 / 2 else (2 : ℚ) ^ (-147 : Int))) (fun _ => 3 / 8) (kindN.get kindN_runs) =
      some (.fin (1 / 8)) := by
  refine ⟨by norm_num [Format.single, fieldGeo], by norm_num [Format.single, fieldGeo], by decide +kernel, by decide +kernel, fun i => ?_, by decide +kernel, by decide +kernel, by decide +kernel⟩
  have : i = 0 := Subsingleton.elim _ _
  subst this
  decide +kernel

/-- an occupancy of 1/2 wherever something was seen -/
def halfOcc : Unit → Occ Nat (Pt ℚ 1) → Fl ℚ := fun _ o => if o.data.isSome then .fin ((2 : ℚ) ^ (-1 : Int)) else .fin ((2 : ℚ) ^ (-2 : Int))

/-- Non-vacuity of `C114_occupancy_unit`, `C114_occupancy_bilinear` and `C114_occupancy_nan`: a map with one scan. -/
example : MapReachable fieldKind fieldOccExp (kindO.get kindO_runs) ∧ (∀ o, UnitNumber Format.single (halfOcc () o)) ∧
    occSampleNNAtF Format.single fieldGeo fieldKind.dyn (fun _ _ => .fin ((2 : ℚ) ^ (0 : Int))) halfOcc (fun _ => 1 / 4) (some ()) (kindO.get kindO_runs) = .ok (some (.fin (1 / 2))) ∧
    occSampleBilinearAtF Format.single fieldGeo fieldKind.dyn (fun _ _ => .fin ((2 : ℚ) ^ (0 : Int))) halfOcc (fun _ => 1 / 4) (some ()) (kindO.get kindO_runs) = .ok (some (.fin (1 / 2))) ∧
    occSampleNNAtF Format.single fieldGeo fieldKind.dyn (fun _ _ => .nan) halfOcc (fun _ => 1 / 4) (some ()) (kindO.get kindO_runs) = .ok (some .nan) := by
  refine ⟨occ_reachable _ _ fieldKind _ _ _ _ _ .init (Option.some_get kindO_runs).symm, fun o => ?_, ?_, ?_, ?_⟩
  · unfold halfOcc
    split <;> exact float_pow_unit (by norm_num) (by norm_num)
  · unfold occSampleNNAtF
    have h : finiteIndexF Format.single fieldGeo.r (fieldGeo.toMap fun _ => 1 / 4) = some fun _ => 0 := by decide +kernel
    rw [h]
    exact congrArg Except.ok (by decide +kernel)
  · unfold occSampleBilinearAtF
    have h : finiteIndexF Format.single fieldGeo.r (fieldGeo.toMap fun _ => 1 / 4) = some fun _ => 0 := by decide +kernel
    rw [h]
    exact congrArg Except.ok (by decide +kernel)
  · unfold occSampleNNAtF
    have h : finiteIndexF Format.single fieldGeo.r (fieldGeo.toMap fun _ => 1 / 4) = some fun _ => 0 := by decide +kernel
    rw [h]
    exact congrArg Except.ok (by decide +kernel)

end Ndt
