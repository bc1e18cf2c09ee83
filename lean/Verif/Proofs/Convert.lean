import Verif.Model.Convert
import Verif.Spec.Converted
import Verif.Proofs.SerialMap

namespace Ndt

namespace Abs
variable {d : Nat} {D : Type} [Inhabited D]

/-- abstract effect of `convertStep` on a bundle inside the map -/
def asg (dyn : Bool) (h : Nat → D → D) (bi : Idx d) (A : Abs d D) : Abs d D :=
  { A.alloc dyn bi with
    content := fun c k => if c < 2 ^ d ∧ generateIndex bi c = k then ((A.alloc dyn bi).content c k).map (h c) else (A.alloc dyn bi).content c k }

theorem AInv.asg {dyn : Bool} {A : Abs d D} (hA : AInv dyn A) (h : Nat → D → D) (bi : Idx d)
    (hb : dyn = true → ∀ a, -2147483648 ≤ bi a ∧ bi a ≤ 2147483647) : AInv dyn (A.asg dyn h bi) where
  used := by
    intro c k
    rw [show (A.asg dyn h bi).allocated = (A.alloc dyn bi).allocated from rfl, ← (hA.alloc bi hb).used c k]
    simp only [Abs.asg]
    split <;> simp
  bounds := (hA.alloc bi hb).bounds
  range := (hA.alloc bi hb).range

end Abs

namespace St
variable {d : Nat} {B B' : Backend d} {D : Type} [Inhabited D]

theorem assignBins_spec (g : D → D → D) (src : Nat → Option D) (b : Bundle) : ∀ (l : List Nat) (st : St B D), l.Nodup →
    (∀ c ∈ l, (b.data c).isSome) → (∀ c ∈ l, (src c).isSome) → (∀ c ∈ l, ∀ c' ∈ l, b.data c = b.data c' → c = c') →
    ∃ st', assignBins g src b l st = some st' ∧ st'.next = st.next ∧ st'.storage = st.storage ∧ st'.bundles = st.bundles ∧
      st'.minB = st.minB ∧ st'.maxB = st.maxB ∧
      (∀ c ∈ l, ∀ a f, b.data c = some a → src c = some f → st'.heap a = g f (st.heap a)) ∧
      (∀ a, (∀ c ∈ l, b.data c ≠ some a) → st'.heap a = st.heap a)
  | [], st, _, _, _, _ => ⟨st, rfl, rfl, rfl, rfl, rfl, rfl, fun _ h => absurd h List.not_mem_nil, fun _ _ => rfl⟩
  | c :: l, st, hnd, hs, hsrc, hinj => by
    obtain ⟨a, ha⟩ := Option.isSome_iff_exists.1 (hs c (List.mem_cons_self ..))
    obtain ⟨f, hf⟩ := Option.isSome_iff_exists.1 (hsrc c (List.mem_cons_self ..))
    rw [List.nodup_cons] at hnd
    obtain ⟨st', h1, h2, h3, h4, h5, h6, h7, h8⟩ := assignBins_spec g src b l { st with heap := Function.update st.heap a (g f (st.heap a)) }
      hnd.2 (fun x hx => hs x (List.mem_cons_of_mem _ hx)) (fun x hx => hsrc x (List.mem_cons_of_mem _ hx))
      (fun x hx y hy => hinj x (List.mem_cons_of_mem _ hx) y (List.mem_cons_of_mem _ hy))
    have hane : ∀ c' ∈ l, b.data c' ≠ some a := by
      intro c' hc' h
      have := hinj c (List.mem_cons_self ..) c' (List.mem_cons_of_mem _ hc') (by rw [ha, h])
      subst this; exact hnd.1 hc'
    refine ⟨st', ?_, h2, h3, h4, h5, h6, ?_, ?_⟩
    · simp only [assignBins, ha, hf]; exact h1
    · intro c' hc' a' f' ha' hf'
      rcases List.mem_cons.1 hc' with rfl | hc'
      · rw [ha] at ha'; cases ha'
        rw [hf] at hf'; cases hf'
        rw [h8 a hane]; simp
      · rw [h7 c' hc' a' f' ha' hf']
        have : a' ≠ a := by rintro rfl; exact hane c' hc' ha'
        simp [Function.update_of_ne this]
    · intro a' h
      rw [h8 a' (fun c' hc' => h c' (List.mem_cons_of_mem _ hc'))]
      have : a' ≠ a := by rintro rfl; exact h c (List.mem_cons_self ..) ha
      simp [Function.update_of_ne this]

theorem convertStep_spec (L : B.Lawful) (dyn : Bool) (g : D → D → D) (bi : Idx d) (src : Nat → Option D) (st : St B D) (hI : Inv L st)
    (hv : st.valid dyn bi = true) (hG : st.abs.Good bi) (hsrc : ∀ c, c < 2 ^ d → (src c).isSome = true) :
    ∃ st', convertStep dyn g bi src st = some st' ∧ Inv L st' ∧ st'.abs = st.abs.asg dyn (fun c t => g ((src c).getD default) t) bi := by
  obtain ⟨b, st1, h1, hI1, hA1, hb1, _⟩ := getAllocate_spec L dyn bi st hI hG
  unfold convertStep getDistributionBundle
  simp only [hv, if_true, h1, twoPow_eq]
  have hcomp := hI1.complete bi b hb1
  obtain ⟨st', h2, hn, hs, hbs, hmin, hmax, hh1, hh2⟩ := assignBins_spec g src b (List.range (2 ^ d)) st1 List.nodup_range
    (fun c hc => by obtain ⟨a, ha, _⟩ := hcomp c (List.mem_range.1 hc); simp [ha]) (fun c hc => hsrc c (List.mem_range.1 hc))
    (by
      intro c hc c' hc' h
      obtain ⟨a, ha, hd⟩ := hcomp c (List.mem_range.1 hc)
      obtain ⟨a', ha', hd'⟩ := hcomp c' (List.mem_range.1 hc')
      rw [ha, ha'] at h; cases h
      exact (hI1.inj _ _ _ _ _ hd hd').1)
  have hdist : ∀ c k, st'.dist c k = st1.dist c k := fun c k => by unfold St.dist; rw [hs]
  have hbun : ∀ bj, st'.bundle bj = st1.bundle bj := fun bj => by unfold St.bundle; rw [hbs]
  refine ⟨st', h2, ?_, ?_⟩
  · refine { toInv0 := ⟨by rw [hs]; exact hI1.store, ?_, ?_⟩, bstore := by rw [hbs]; exact hI1.bstore, complete := ?_ }
    · intro c k a h; rw [hn]; rw [hdist] at h; exact hI1.fresh c k a h
    · intro c k c' k' a h h'; rw [hdist] at h h'; exact hI1.inj c k c' k' a h h'
    · intro bj b' h c hc
      rw [hbun] at h; rw [hdist]; exact hI1.complete bj b' h c hc
  · unfold Abs.asg
    rw [← hA1]
    ext1
    · funext bj; simp only [abs]; rw [hbun]
    · funext c k
      simp only [abs]
      unfold St.content
      rw [hdist]
      cases hd : st1.dist c k with
      | none => simp
      | some a =>
        simp only [Option.map_some]
        by_cases hc : c < 2 ^ d ∧ generateIndex bi c = k
        · obtain ⟨hc1, rfl⟩ := hc
          simp only [hc1, and_self, if_true]
          obtain ⟨a', ha', hd'⟩ := hcomp c hc1
          rw [hd] at hd'; cases hd'
          obtain ⟨f, hf⟩ := Option.isSome_iff_exists.1 (hsrc c hc1)
          rw [hh1 c (List.mem_range.2 hc1) a f ha' hf, hf]
          rfl
        · rw [if_neg hc, hh2 a]
          intro c' hc' hbc
          obtain ⟨a', ha', hd'⟩ := hcomp c' (List.mem_range.1 hc')
          rw [hbc] at ha'; cases ha'
          obtain ⟨rfl, rfl⟩ := hI1.inj _ _ _ _ _ hd hd'
          exact hc ⟨List.mem_range.1 hc', rfl⟩
    · exact hmin
    · exact hmax
    · simp only [abs]; rw [hbs]
    · simp only [abs]; rw [hs]

/-- The state of a conversion after some of the bundles: exactly the bundles of `S` are allocated and exactly their distributions exist, with the contents of the source. -/
structure ConvInv (S : Set (Idx d)) (src : Nat → Idx d → Option D) (A : Abs d D) : Prop where
  alloc : ∀ bi, bi ∈ S → A.flags bi = some true
  free : ∀ bi, bi ∉ S → A.flags bi = none
  content : ∀ c k, (c < 2 ^ d ∧ ∃ bi ∈ S, generateIndex bi c = k) → A.content c k = src c k
  none : ∀ c k, ¬ (c < 2 ^ d ∧ ∃ bi ∈ S, generateIndex bi c = k) → A.content c k = none

theorem ConvInv.step {dyn : Bool} {S : Set (Idx d)} {src : Nat → Idx d → Option D} {A : Abs d D} (h : ConvInv S src A) (g : D → D → D)
    (bi : Idx d) (hs : ∀ c, c < 2 ^ d → ∃ x, src c (generateIndex bi c) = some x ∧ g x default = x ∧ g x x = x) :
    ConvInv (insert bi S) src (A.asg dyn (fun c t => g ((src c (generateIndex bi c)).getD default) t) bi) := by
  have hflags : ∀ bj, (A.alloc dyn bi).flags bj = if bj = bi then some true else A.flags bj := by
    intro bj
    by_cases hb : bi ∈ S
    · have hf := h.alloc bi hb
      have : A.alloc dyn bi = A := by unfold Abs.alloc; rw [if_pos (by rw [hf]; rfl)]
      rw [this]
      split
      · rename_i e; rw [e, hf]
      · rfl
    · have hf := h.free bi hb
      unfold Abs.alloc; rw [if_neg (by rw [hf]; simp)]
      simp only [Function.update_apply]
  have hcont : ∀ c, c < 2 ^ d → (A.alloc dyn bi).content c (generateIndex bi c) = some default ∨
      (A.alloc dyn bi).content c (generateIndex bi c) = src c (generateIndex bi c) := by
    intro c hc
    by_cases hb : bi ∈ S
    · have : A.alloc dyn bi = A := by unfold Abs.alloc; rw [if_pos (by rw [h.alloc bi hb]; rfl)]
      rw [this]
      exact Or.inr (h.content c _ ⟨hc, bi, hb, rfl⟩)
    · unfold Abs.alloc; rw [if_neg (by rw [h.free bi hb]; simp)]
      simp only [hc, and_self, if_true]
      by_cases he : ∃ bj ∈ S, generateIndex bj c = generateIndex bi c
      · right
        rw [h.content c _ ⟨hc, he⟩]
        obtain ⟨x, hx, _⟩ := hs c hc
        rw [hx]; rfl
      · left
        rw [h.none c _ (fun hh => he hh.2)]; rfl
  have hcont' : ∀ c k, ¬ (c < 2 ^ d ∧ generateIndex bi c = k) → (A.alloc dyn bi).content c k = A.content c k := by
    intro c k hn
    unfold Abs.alloc
    split
    · rfl
    · simp only [if_neg hn]
  refine ⟨?_, ?_, ?_, ?_⟩
  · intro bj hbj
    show (A.alloc dyn bi).flags bj = _
    rw [hflags]
    split
    · rfl
    · rename_i e
      exact h.alloc bj (hbj.resolve_left e)
  · intro bj hbj
    show (A.alloc dyn bi).flags bj = _
    rw [hflags, if_neg (fun e => hbj (Or.inl e))]
    exact h.free bj (fun x => hbj (Or.inr x))
  · rintro c k ⟨hc, bj, hbj, hk⟩
    simp only [Abs.asg]
    by_cases e : c < 2 ^ d ∧ generateIndex bi c = k
    · rw [if_pos e]
      obtain ⟨_, rfl⟩ := e
      obtain ⟨x, hx, hx1, hx2⟩ := hs c hc
      rcases hcont c hc with h' | h'
      · rw [h', hx, Option.map_some, Option.getD_some, hx1]
      · rw [h', hx, Option.map_some, Option.getD_some, hx2]
    · rw [if_neg e, hcont' c k e]
      refine h.content c k ⟨hc, bj, ?_, hk⟩
      rcases hbj with rfl | hbj
      · exact absurd ⟨hc, hk⟩ e
      · exact hbj
  · intro c k hn
    have e : ¬ (c < 2 ^ d ∧ generateIndex bi c = k) := fun e => hn ⟨e.1, bi, Or.inl rfl, e.2⟩
    simp only [Abs.asg]
    rw [if_neg e, hcont' c k e]
    exact h.none c k fun ⟨x, bj, y, z⟩ => hn ⟨x, bj, Or.inr y, z⟩

theorem valid_asg (dyn : Bool) (h : Nat → D → D) (bi i : Idx d) (A : Abs d D) : (A.asg dyn h bi).valid dyn i = A.valid dyn i := valid_alloc dyn bi i A

theorem good_asg (dyn : Bool) (h : Nat → D → D) (bi i : Idx d) (A : Abs d D) : (A.asg dyn h bi).Good i ↔ A.Good i := Abs.good_alloc dyn bi i A

/-- invariants of a conversion, without the contents -/
structure ConvKeep (dyn : Bool) (A0 A : Abs d D) : Prop where
  okB : A.okB = A0.okB
  okD : A.okD = A0.okD
  bounds : dyn = false → A.minB = A0.minB ∧ A.maxB = A0.maxB

theorem ConvKeep.asg {dyn : Bool} {A0 A : Abs d D} (h : ConvKeep dyn A0 A) (f : Nat → D → D) (bi : Idx d) : ConvKeep dyn A0 (A.asg dyn f bi) where
  okB := (Abs.alloc_okB dyn bi A).trans h.okB
  okD := (Abs.alloc_okD dyn bi A).trans h.okD
  bounds := by
    intro hd
    subst hd
    have : (A.alloc false bi).minB = A.minB ∧ (A.alloc false bi).maxB = A.maxB := by
      unfold Abs.alloc; split <;> exact ⟨rfl, rfl⟩
    exact ⟨this.1.trans (h.bounds rfl).1, this.2.trans (h.bounds rfl).2⟩

theorem convertList_spec (L : B.Lawful) (dyn : Bool) (g : D → D → D) (src : Nat → Idx d → Option D) : ∀ (l : List (Idx d × (Nat → Option D))) (S : Set (Idx d)) (st : St B D),
    Inv L st → Abs.AInv dyn st.abs → ConvInv S src st.abs →
    (∀ e ∈ l, (∀ c, c < 2 ^ d → e.2 c = src c (generateIndex e.1 c)) ∧ ∀ c, c < 2 ^ d → ∃ x, src c (generateIndex e.1 c) = some x ∧ g x default = x ∧ g x x = x) →
    (∀ e ∈ l, st.abs.valid dyn e.1 = true ∧ st.abs.Good e.1) → (dyn = true → ∀ e ∈ l, ∀ a, -2147483648 ≤ e.1 a ∧ e.1 a ≤ 2147483647) →
    ∃ st', convertList dyn g l st = some st' ∧ Inv L st' ∧ Abs.AInv dyn st'.abs ∧ ConvInv (S ∪ {bi | bi ∈ l.map Prod.fst}) src st'.abs ∧ ConvKeep dyn st.abs st'.abs
  | [], S, st, hI, hA, hC, _, _, _ => ⟨st, rfl, hI, hA, by
      have : S ∪ {bi | bi ∈ ([] : List (Idx d × (Nat → Option D))).map Prod.fst} = S := by ext; simp
      rw [this]; exact hC, ⟨rfl, rfl, fun _ => ⟨rfl, rfl⟩⟩⟩
  | (bi, f) :: l, S, st, hI, hA, hC, hsrc, hok, hr => by
    obtain ⟨hv, hG⟩ := hok (bi, f) (List.mem_cons_self ..)
    obtain ⟨hf, hx⟩ := hsrc (bi, f) (List.mem_cons_self ..)
    obtain ⟨st1, h1, hI1, hA1⟩ := convertStep_spec L dyn g bi f st hI hv hG (fun c hc => by
      have := hf c hc
      simp only at this
      obtain ⟨x, hx, _⟩ := hx c hc
      rw [this, hx]; rfl)
    have hA1'' : st1.abs = st.abs.asg dyn (fun c t => g ((src c (generateIndex bi c)).getD default) t) bi := by
      rw [hA1]
      have hf' : ∀ c, c < 2 ^ d → f c = src c (generateIndex bi c) := hf
      refine Abs.ext rfl ?_ rfl rfl rfl rfl
      funext c k
      simp only [Abs.asg]
      split
      · rename_i hc; rw [hf' c hc.1]
      · rfl
    obtain ⟨st', h2, r1, r2, r3, r4⟩ := convertList_spec L dyn g src l (insert bi S) st1 hI1
      (by rw [hA1'']; exact hA.asg _ bi (fun hd => hr hd (bi, f) (List.mem_cons_self ..)))
      (by rw [hA1'']; exact hC.step g bi hx)
      (fun e he => hsrc e (List.mem_cons_of_mem _ he))
      (fun e he => by rw [hA1'', valid_asg, good_asg]; exact hok e (List.mem_cons_of_mem _ he))
      (fun hd e he => hr hd e (List.mem_cons_of_mem _ he))
    refine ⟨st', ?_, r1, r2, ?_, ?_⟩
    · rw [convertList, h1]; exact h2
    · have : S ∪ {b | b ∈ ((bi, f) :: l).map Prod.fst} = insert bi S ∪ {b | b ∈ l.map Prod.fst} := by
        ext b
        simp only [Set.mem_union, Set.mem_insert_iff, List.map_cons, List.mem_cons, Set.mem_ofPred_eq]
        tauto
      rw [this]; exact r3
    · have k0 : ConvKeep dyn st.abs st1.abs := by
        rw [hA1'']; exact (ConvKeep.mk rfl rfl (fun _ => ⟨rfl, rfl⟩) : ConvKeep dyn st.abs st.abs).asg _ _
      exact ⟨r4.okB.trans k0.okB, r4.okD.trans k0.okD, fun hd => ⟨(r4.bounds hd).1.trans (k0.bounds hd).1, (r4.bounds hd).2.trans (k0.bounds hd).2⟩⟩

/-- Conversion into a new map of kind `k`: everything is copied if every bundle of the source is inside the new map. -/
theorem convert_spec (L : B.Lawful) (src : St B D) (dyn : Bool) (hI : RInv L dyn src) (k : Kind d) (g : D → D → D)
    (hg : ∀ c < 2 ^ d, ∀ i x, src.content c i = some x → g x default = x ∧ g x x = x)
    (hok : ∀ bi ∈ src.bundleIndices, (k.init D).abs.valid k.dyn bi = true ∧ (k.init D).abs.Good bi)
    (hr : k.dyn = true → ∀ bi ∈ src.bundleIndices, ∀ a, -2147483648 ≤ bi a ∧ bi a ≤ 2147483647) :
    ∃ st', convertList k.dyn g (bundleList src) (k.init D) = some st' ∧ RInv k.lawful k.dyn st' ∧ Spec.Converted src st' ∧
      ConvKeep k.dyn (k.init D).abs st'.abs ∧ st'.abs.allocated = src.abs.allocated ∧ (∀ bi ∈ st'.abs.allocated, st'.abs.flags bi = some true) := by
  have hfst : (bundleList src).map Prod.fst = src.bundleIndices := by
    unfold bundleList bundleIndices
    rw [List.map_map]; rfl
  have hmem : ∀ e ∈ bundleList src, ∃ b, src.bundle e.1 = some b ∧ e.2 = fun c => (b.data c).map src.heap := by
    intro e he
    obtain ⟨⟨bi, b⟩, hb, rfl⟩ := List.mem_map.1 he
    exact ⟨b, (L.mem_traverse _ hI.inv.bstore bi b).1 hb, rfl⟩
  have hbin : ∀ bi b, src.bundle bi = some b → ∀ c, c < 2 ^ d → (b.data c).map src.heap = src.content c (generateIndex bi c) ∧ (src.content c (generateIndex bi c)).isSome = true := by
    intro bi b hb c hc
    obtain ⟨a, h1, h2⟩ := hI.inv.complete bi b hb c hc
    unfold St.content
    rw [h1, h2]
    exact ⟨rfl, rfl⟩
  have hsrc : ∀ e ∈ bundleList src, (∀ c, c < 2 ^ d → e.2 c = src.content c (generateIndex e.1 c)) ∧
      ∀ c, c < 2 ^ d → ∃ x, src.content c (generateIndex e.1 c) = some x ∧ g x default = x ∧ g x x = x := by
    intro e he
    obtain ⟨b, hb, hf⟩ := hmem e he
    refine ⟨fun c hc => by rw [hf]; exact (hbin e.1 b hb c hc).1, fun c hc => ?_⟩
    obtain ⟨x, hx⟩ := Option.isSome_iff_exists.1 (hbin e.1 b hb c hc).2
    exact ⟨x, hx, hg _ hc _ x hx⟩
  have hbl : ∀ e ∈ bundleList src, e.1 ∈ src.bundleIndices := by
    intro e he
    rw [← hfst]; exact List.mem_map.2 ⟨e, he, rfl⟩
  have hR0 := k.init_rinv (D := D)
  obtain ⟨st', h1, h2, h3, h4, h5⟩ := convertList_spec k.lawful k.dyn g src.content (bundleList src) ∅ (k.init D) hR0.inv hR0.ainv
    ⟨fun bi h => absurd h (Set.notMem_empty _), fun bi _ => Kind.init_flags k bi, fun c i ⟨_, bi, h, _⟩ => absurd h (Set.notMem_empty _), fun c i _ => Kind.init_content k c i⟩
    hsrc (fun e he => hok e.1 (hbl e he)) (fun hd e he => hr hd e.1 (hbl e he))
  rw [Set.empty_union, hfst] at h4
  have hal : ∀ bi, bi ∈ src.bundleIndices ↔ bi ∈ src.abs.allocated := fun bi => by
    rw [mem_allocated_iff, mem_bundleIndices L src hI.inv]
  have hal' : ∀ bi, bi ∈ st'.abs.allocated ↔ bi ∈ src.bundleIndices := by
    intro bi
    rw [Abs.mem_allocated]
    by_cases hb : bi ∈ src.bundleIndices
    · rw [h4.alloc bi hb]; simp [hb]
    · rw [h4.free bi hb]; simp [hb]
  have hcont : ∀ c i, st'.content c i = src.content c i := by
    intro c i
    show st'.abs.content c i = _
    by_cases hc : c < 2 ^ d ∧ ∃ bi ∈ {bi | bi ∈ src.bundleIndices}, generateIndex bi c = i
    · exact h4.content c i hc
    · rw [h4.none c i hc]
      cases hx : src.content c i with
      | none => rfl
      | some x =>
        obtain ⟨h1, bi, h2, h3⟩ := (hI.ainv.used c i).1 (by show (src.content c i).isSome = true; rw [hx]; rfl)
        exact absurd ⟨h1, bi, (hal bi).2 h2, h3⟩ hc
  have hI' : RInv k.lawful k.dyn st' := by
    refine ⟨h2, h3, ?_, ?_⟩
    · intro hd bi hb
      rw [h5.okB] at hb
      exact hR0.rng hd bi hb
    · intro bi hb
      have : bi ∈ st'.abs.allocated := by rw [Abs.mem_allocated, hb]; rfl
      rw [h4.alloc bi ((hal' bi).1 this)] at hb
      cases hb
  refine ⟨st', h1, hI', ⟨?_, hcont, ?_⟩, h5, ?_, ?_⟩
  · intro bi
    rw [mem_bundleIndices k.lawful st' h2, ← mem_allocated_iff, hal']
  · intro bi c hc
    have key : ∀ {B : Backend d} (L : B.Lawful) (s : St B D), Inv L s → s.binContent bi c = if (s.bundle bi).isSome then s.content c (generateIndex bi c) else none := by
      intro B L s hs
      unfold binContent
      cases hb : s.bundle bi with
      | none => simp
      | some b =>
        obtain ⟨a, h1, h2⟩ := hs.complete bi b hb c hc
        unfold St.content
        simp [h1, h2]
    rw [key k.lawful st' h2, key L src hI.inv, hcont]
    have : (st'.bundle bi).isSome = (src.bundle bi).isSome := by
      rw [Bool.eq_iff_iff, ← mem_allocated_iff, ← mem_allocated_iff, hal', hal]
    rw [this]
  · ext bi
    rw [hal', hal]
  · intro bi hb
    exact h4.alloc bi ((hal' bi).1 hb)

end St
end Ndt
