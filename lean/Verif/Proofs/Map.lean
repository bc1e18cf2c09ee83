import Verif.Model.Map
import Verif.Proofs.Index
import Verif.Proofs.Backend

/-!
Refinement of the concrete map (heap, storages, bundles) to an abstract map: which bundles are allocated (and their expand flags), and the content of every
distribution.
-/

namespace Ndt

/-- Abstract map state. -/
@[ext] structure Abs (d : Nat) (D : Type) where
  /-- allocated bundles and their expand flag -/
  flags : Idx d → Option Bool
  /-- contents of the existing distributions -/
  content : Nat → Idx d → Option D
  minB : Idx d
  maxB : Idx d
  okB : Idx d → Bool
  okD : Nat → Idx d → Bool

namespace Abs
variable {d : Nat} {D : Type} [Inhabited D]

def alloc (dyn : Bool) (bi : Idx d) (A : Abs d D) : Abs d D :=
  if (A.flags bi).isSome then A else
  { A with
    flags := Function.update A.flags bi (some true)
    content := fun c k => if c < 2 ^ d ∧ generateIndex bi c = k then some ((A.content c k).getD default) else A.content c k
    minB := if dyn then fun a => min (A.minB a) (bi a) else A.minB
    maxB := if dyn then fun a => max (A.maxB a) (bi a) else A.maxB }

def upd (dyn : Bool) (bi : Idx d) (f : D → D) (A : Abs d D) : Abs d D :=
  { A.alloc dyn bi with
    content := fun c k => if c < 2 ^ d ∧ generateIndex bi c = k then ((A.alloc dyn bi).content c k).map f else (A.alloc dyn bi).content c k }

def setExpanded (bi : Idx d) (A : Abs d D) : Abs d D :=
  { A with flags := Function.update A.flags bi ((A.flags bi).map fun _ => false) }

/-- the bundle may be accessed together with all its distributions -/
def Good (A : Abs d D) (bi : Idx d) : Prop := A.okB bi = true ∧ ∀ c, c < 2 ^ d → A.okD c (generateIndex bi c) = true

theorem alloc_okB (dyn : Bool) (bi : Idx d) (A : Abs d D) : (A.alloc dyn bi).okB = A.okB := by unfold alloc; split <;> rfl
theorem alloc_okD (dyn : Bool) (bi : Idx d) (A : Abs d D) : (A.alloc dyn bi).okD = A.okD := by unfold alloc; split <;> rfl
theorem upd_okB (dyn : Bool) (bi : Idx d) (f : D → D) (A : Abs d D) : (A.upd dyn bi f).okB = A.okB := alloc_okB dyn bi A
theorem upd_okD (dyn : Bool) (bi : Idx d) (f : D → D) (A : Abs d D) : (A.upd dyn bi f).okD = A.okD := alloc_okD dyn bi A

theorem good_alloc (dyn : Bool) (bi bj : Idx d) (A : Abs d D) : (A.alloc dyn bi).Good bj ↔ A.Good bj := by
  unfold Good; rw [alloc_okB, alloc_okD]
theorem good_upd (dyn : Bool) (bi bj : Idx d) (f : D → D) (A : Abs d D) : (A.upd dyn bi f).Good bj ↔ A.Good bj :=
  good_alloc dyn bi bj A
theorem good_setExpanded (bi bj : Idx d) (A : Abs d D) : (A.setExpanded bi).Good bj ↔ A.Good bj := Iff.rfl
end Abs

namespace St
variable {d : Nat} {B : Backend d} {D : Type} [Inhabited D]

/-- the abstraction function -/
def abs (st : St B D) : Abs d D where
  flags := fun bi => (st.bundle bi).map Bundle.expand
  content := st.content
  minB := st.minB
  maxB := st.maxB
  okB := B.ok st.bundles
  okD := fun c => B.ok (st.storage c)

/-- invariant of the storages and the heap -/
structure Inv0 (L : B.Lawful) (st : St B D) : Prop where
  store : ∀ c, L.Inv (st.storage c)
  fresh : ∀ c k a, st.dist c k = some a → a < st.next
  inj : ∀ c k c' k' a, st.dist c k = some a → st.dist c' k' = some a → c = c' ∧ k = k'

/-- every allocated bundle is complete and points to the stored objects -/
structure Inv (L : B.Lawful) (st : St B D) : Prop extends Inv0 L st where
  bstore : L.Inv st.bundles
  complete : ∀ bi b, st.bundle bi = some b → ∀ c, c < 2 ^ d → ∃ a, b.data c = some a ∧ st.dist c (generateIndex bi c) = some a

/-- What allocation does to the storages and the heap. -/
structure Ext (l : List (Nat × Idx d)) (st st' : St B D) : Prop where
  keep : ∀ c k a, st.dist c k = some a → st'.dist c k = some a
  new : ∀ c k a, st'.dist c k = some a → st.dist c k = some a ∨ (st.dist c k = none ∧ st.next ≤ a ∧ st'.heap a = default ∧ (c, k) ∈ l)
  heap : ∀ a, a < st.next → st'.heap a = st.heap a
  next : st.next ≤ st'.next
  bundles : st'.bundles = st.bundles
  minB : st'.minB = st.minB
  maxB : st'.maxB = st.maxB
  ok : ∀ c k, B.ok (st'.storage c) k = B.ok (st.storage c) k

theorem Ext.refl (st : St B D) : Ext [] st st :=
  ⟨fun _ _ _ h => h, fun _ _ _ h => Or.inl h, fun _ _ => rfl, le_refl _, rfl, rfl, rfl, fun _ _ => rfl⟩

theorem Ext.trans {l l' : List (Nat × Idx d)} {s t u : St B D} (L : B.Lawful) (ht : Inv0 L t) (h : Ext l s t) (g : Ext l' t u) :
    Ext (l ++ l') s u where
  keep := fun c k a x => g.keep c k a (h.keep c k a x)
  new := by
    intro c k a x
    rcases g.new c k a x with y | ⟨y1, y2, y3, y4⟩
    · rcases h.new c k a y with z | ⟨z1, z2, z3, z4⟩
      · exact Or.inl z
      · exact Or.inr ⟨z1, z2, by rw [g.heap a (ht.fresh c k a y), z3], List.mem_append_left _ z4⟩
    · refine Or.inr ⟨?_, le_trans h.next y2, y3, List.mem_append_right _ y4⟩
      cases hs : s.dist c k with
      | none => rfl
      | some a' => rw [h.keep c k a' hs] at y1; cases y1
  heap := fun a ha => (g.heap a (lt_of_lt_of_le ha h.next)).trans (h.heap a ha)
  next := le_trans h.next g.next
  bundles := g.bundles.trans h.bundles
  minB := g.minB.trans h.minB
  maxB := g.maxB.trans h.maxB
  ok := fun c k => (g.ok c k).trans (h.ok c k)

theorem look_of_ok {V : Type} (B : Backend d) (s : B.Store V) (i : Idx d) (h : B.ok s i = true) : B.look s i = B.get s i := by
  unfold Backend.look; rw [if_pos h]

theorem getAllocateDist_spec (L : B.Lawful) (st : St B D) (hI : Inv0 L st) (c : Nat) (k : Idx d) (hok : B.ok (st.storage c) k = true) :
    ∃ a st', getAllocateDist c k st = some (a, st') ∧ Inv0 L st' ∧ Ext [(c, k)] st st' ∧ st'.dist c k = some a := by
  unfold getAllocateDist
  rw [if_pos hok]
  have hl := look_of_ok B (st.storage c) k hok
  cases hg : B.get (st.storage c) k with
  | some a =>
    refine ⟨a, st, rfl, hI, ?_, ?_⟩
    · exact ⟨fun _ _ _ h => h, fun _ _ _ h => Or.inl h, fun _ _ => rfl, le_refl _, rfl, rfl, rfl, fun _ _ => rfl⟩
    · unfold dist; rw [hl, hg]
  | none =>
    have hnone : st.dist c k = none := by unfold dist; rw [hl, hg]
    set st' : St B D := { st with
        heap := Function.update st.heap st.next default
        next := st.next + 1
        storage := Function.update st.storage c (B.insert (st.storage c) k st.next) } with hst'
    have hdist : ∀ c' k', st'.dist c' k' = if c' = c ∧ k' = k then some st.next else st.dist c' k' := by
      intro c' k'
      unfold dist
      by_cases e : c' = c
      · subst e
        simp only [hst', Function.update_self]
        rw [L.look_insert _ _ _ _ (hI.store c') hok (by rw [hl, hg])]
        simp
      · simp [hst', Function.update_of_ne e, e]
    refine ⟨st.next, st', rfl, ?_, ?_, ?_⟩
    · refine ⟨?_, ?_, ?_⟩
      · intro c'
        by_cases e : c' = c
        · subst e; simp only [hst', Function.update_self]; exact L.inv_insert _ _ _ (hI.store c') hok
        · simp only [hst', Function.update_of_ne e]; exact hI.store c'
      · intro c' k' a h
        rw [hdist] at h
        split at h
        · cases h; exact Nat.lt_succ_self _
        · exact Nat.lt_succ_of_lt (hI.fresh _ _ _ h)
      · intro c1 k1 c2 k2 a h1 h2
        rw [hdist] at h1 h2
        split at h1 <;> split at h2
        · rename_i x y; exact ⟨x.1.trans y.1.symm, x.2.trans y.2.symm⟩
        · cases h1; exact absurd (hI.fresh _ _ _ h2) (lt_irrefl _)
        · cases h2; exact absurd (hI.fresh _ _ _ h1) (lt_irrefl _)
        · exact hI.inj _ _ _ _ _ h1 h2
    · refine ⟨?_, ?_, ?_, Nat.le_succ _, rfl, rfl, rfl, ?_⟩
      · intro c' k' a h
        rw [hdist]
        split
        · rename_i x; obtain ⟨rfl, rfl⟩ := x; rw [hnone] at h; cases h
        · exact h
      · intro c' k' a h
        rw [hdist] at h
        split at h
        · rename_i x; obtain ⟨rfl, rfl⟩ := x
          cases h
          exact Or.inr ⟨hnone, le_refl _, by simp [hst'], by simp⟩
        · exact Or.inl h
      · intro a ha; simp only [hst']; rw [Function.update_of_ne (Nat.ne_of_lt ha)]
      · intro c' k'
        by_cases e : c' = c
        · subst e; simp only [hst', Function.update_self]; exact L.ok_insert _ _ _ _
        · simp [hst', Function.update_of_ne e]
    · rw [hdist]; simp

theorem allocBins_spec (L : B.Lawful) : ∀ (l : List (Nat × Idx d)) (b : Bundle) (st : St B D), Inv0 L st →
    (l.map Prod.fst).Nodup → (∀ e ∈ l, b.data e.1 = none) → (∀ e ∈ l, B.ok (st.storage e.1) e.2 = true) →
    ∃ b' st', allocBins l b st = some (b', st') ∧ Inv0 L st' ∧ Ext l st st' ∧ b'.expand = b.expand ∧
      (∀ e ∈ l, ∃ a, b'.data e.1 = some a ∧ st'.dist e.1 e.2 = some a) ∧
      (∀ c, c ∉ l.map Prod.fst → b'.data c = b.data c)
  | [], b, st, hI, _, _, _ =>
    ⟨b, st, rfl, hI, Ext.refl st, rfl, fun _ h => absurd h (List.not_mem_nil), fun _ _ => rfl⟩
  | (c, k) :: l, b, st, hI, hnd, hb, hok => by
    obtain ⟨a, st1, h1, hI1, hE1, hd1⟩ := getAllocateDist_spec L st hI c k (hok (c, k) (List.mem_cons_self ..))
    rw [List.map_cons, List.nodup_cons] at hnd
    have hne : ∀ e ∈ l, e.1 ≠ c := fun e he hec => hnd.1 (List.mem_map.2 ⟨e, he, hec⟩)
    obtain ⟨b', st', h2, hI2, hE2, hx, hd2, ho⟩ := allocBins_spec L l { b with data := Function.update b.data c (some a) } st1 hI1 hnd.2
      (fun e he => by simp only [Function.update_of_ne (hne e he)]; exact hb e (List.mem_cons_of_mem _ he))
      (fun e he => by rw [hE1.ok]; exact hok e (List.mem_cons_of_mem _ he))
    refine ⟨b', st', ?_, hI2, hE1.trans L hI1 hE2, hx, ?_, ?_⟩
    · have hbc : b.data c = none := hb (c, k) (List.mem_cons_self ..)
      simp only [allocBins, hbc, h1]
      exact h2
    · intro e he
      rcases List.mem_cons.1 he with rfl | he
      · refine ⟨a, ?_, hE2.keep _ _ _ hd1⟩
        rw [ho c hnd.1]; simp
      · exact hd2 e he
    · intro c' hc'
      rw [List.map_cons, List.mem_cons, not_or] at hc'
      rw [ho c' hc'.2]
      simp only [Function.update_of_ne hc'.1]

theorem applyIndices_list (bi : Idx d) : applyIndices bi 0 (twoPow d) = (List.range (2 ^ d)).map (fun c => (c, generateIndex bi c)) := by
  rw [applyIndices_eq, twoPow_eq, List.range_eq_range']

theorem Ext.content {l : List (Nat × Idx d)} {st st' : St B D} (L : B.Lawful) (hI : Inv0 L st) (h : Ext l st st')
    (hl : ∀ e ∈ l, ∃ a, st'.dist e.1 e.2 = some a) (c : Nat) (k : Idx d) [Decidable ((c, k) ∈ l)] :
    st'.content c k = if (c, k) ∈ l then some ((st.content c k).getD default) else st.content c k := by
  unfold St.content
  cases hs : st.dist c k with
  | some a =>
    rw [h.keep c k a hs]
    simp [h.heap a (hI.fresh c k a hs)]
  | none =>
    cases hs' : st'.dist c k with
    | none =>
      rw [if_neg]; · rfl
      intro hm
      obtain ⟨a, ha⟩ := hl _ hm
      rw [hs'] at ha; cases ha
    | some a =>
      rcases h.new c k a hs' with x | ⟨_, _, x, y⟩
      · rw [hs] at x; cases x
      · rw [if_pos y]; simp [x]

/-- `getAllocate` refines the abstract allocation. -/
theorem getAllocate_spec (L : B.Lawful) (dyn : Bool) (bi : Idx d) (st : St B D) (hI : Inv L st) (hG : st.abs.Good bi) :
    ∃ b st', getAllocate dyn bi st = some (b, st') ∧ Inv L st' ∧ st'.abs = st.abs.alloc dyn bi ∧ st'.bundle bi = some b ∧
      (∀ b0, st.bundle bi = some b0 → b = b0 ∧ st' = st) ∧
      (∀ bj, bj ≠ bi → st'.bundle bj = st.bundle bj) ∧ (∀ c k a, st.dist c k = some a → st'.dist c k = some a) := by
  obtain ⟨hok, hokD⟩ := hG
  change B.ok st.bundles bi = true at hok
  have hl := look_of_ok B st.bundles bi hok
  unfold getAllocate
  rw [if_pos hok]
  cases hg : B.get st.bundles bi with
  | some b =>
    have hbi : st.bundle bi = some b := by unfold bundle; rw [hl, hg]
    refine ⟨b, st, rfl, hI, ?_, hbi, ?_, fun _ _ => rfl, fun _ _ _ h => h⟩
    · unfold Abs.alloc; rw [if_pos]; simp [abs, hbi]
    · intro b0 h0; rw [hbi] at h0; cases h0; exact ⟨rfl, rfl⟩
  | none =>
    have hbi : st.bundle bi = none := by unfold bundle; rw [hl, hg]
    have hlook : B.look st.bundles bi = none := hbi
    set st1 : St B D := { st with bundles := B.insert st.bundles bi Bundle.new } with hst1
    have hI1 : Inv0 L st1 := ⟨hI.store, hI.fresh, hI.inj⟩
    rw [applyIndices_list]
    set l := (List.range (2 ^ d)).map (fun c => (c, generateIndex bi c)) with hldef
    have hfst : l.map Prod.fst = List.range (2 ^ d) := by simp [hldef, Function.comp_def]
    have hmem : ∀ c k, (c, k) ∈ l ↔ c < 2 ^ d ∧ generateIndex bi c = k := by
      intro c k
      simp only [hldef, List.mem_map, List.mem_range, Prod.mk.injEq]
      constructor
      · rintro ⟨x, hx, rfl, rfl⟩; exact ⟨hx, rfl⟩
      · rintro ⟨hx, rfl⟩; exact ⟨c, hx, rfl, rfl⟩
    obtain ⟨b, st2, h2, hI2, hE, hx, hd, ho⟩ := allocBins_spec L l Bundle.new st1 hI1 (by rw [hfst]; exact List.nodup_range)
      (fun _ _ => rfl) (by
        rintro ⟨c, k⟩ he
        obtain ⟨hc, rfl⟩ := (hmem c k).1 he
        exact hokD c hc)
    simp only [h2]
    set st3 : St B D := { st2 with bundles := B.modify st2.bundles bi (fun _ => b) } with hst3
    have hins := L.inv_insert st.bundles bi Bundle.new hI.bstore hok
    have hok1 : B.ok (B.insert st.bundles bi Bundle.new) bi = true := by rw [L.ok_insert]; exact hok
    have hbun : ∀ bj, B.look (B.modify st2.bundles bi (fun _ => b)) bj = if bj = bi then some b else st.bundle bj := by
      intro bj
      rw [hE.bundles]
      simp only [hst1]
      rw [L.look_modify _ _ _ _ hins hok1, L.look_insert _ _ _ _ hI.bstore hok hlook, L.look_insert _ _ _ _ hI.bstore hok hlook]
      by_cases e : bj = bi
      · subst e; simp
      · simp [e, bundle]
    have hIst3 : Inv L st3 := by
      refine { toInv0 := ⟨hI2.store, hI2.fresh, hI2.inj⟩, bstore := ?_, complete := ?_ }
      · simp only [hst3]; rw [hE.bundles]; exact L.inv_modify _ _ _ hins hok1
      · intro bj b' hb' c hc
        have hb'' : (if bj = bi then some b else st.bundle bj) = some b' := by rw [← hbun bj]; exact hb'
        by_cases e : bj = bi
        · subst e
          simp only [if_true, Option.some.injEq] at hb''
          subst hb''
          exact hd (c, generateIndex bj c) ((hmem _ _).2 ⟨hc, rfl⟩)
        · rw [if_neg e] at hb''
          obtain ⟨a, ha1, ha2⟩ := hI.complete bj b' hb'' c hc
          exact ⟨a, ha1, hE.keep _ _ _ ha2⟩
    have hui : ∀ s : St B D, Inv L s → Inv L (updateIndices dyn bi s) := by
      intro s hs
      unfold updateIndices; split
      · exact { toInv0 := ⟨hs.store, hs.fresh, hs.inj⟩, bstore := hs.bstore, complete := hs.complete }
      · exact hs
    have hub : (updateIndices dyn bi st3).bundles = st3.bundles := by unfold updateIndices; split <;> rfl
    have hus : (updateIndices dyn bi st3).storage = st3.storage := by unfold updateIndices; split <;> rfl
    have huh : (updateIndices dyn bi st3).heap = st3.heap := by unfold updateIndices; split <;> rfl
    have hbundle : ∀ bj, (updateIndices dyn bi st3).bundle bj = if bj = bi then some b else st.bundle bj := by
      intro bj; unfold bundle; rw [hub]; exact hbun bj
    refine ⟨b, updateIndices dyn bi st3, rfl, hui st3 hIst3, ?_, ?_, ?_, ?_, ?_⟩
    · classical
      have hfl : (st.abs.flags bi).isSome = false := by simp [abs, hbi]
      unfold Abs.alloc; rw [hfl]
      simp only [Bool.false_eq_true, if_false]
      ext1
      · funext bj
        simp only [abs, hbundle]
        by_cases e : bj = bi
        · subst e; simp [hx, Bundle.new]
        · simp [e]
      · funext c k
        have := hE.content L hI1 (fun e he => (hd e he).imp fun _ h => h.2) c k
        simp only [hmem] at this
        simp only [abs]
        have e1 : (updateIndices dyn bi st3).content c k = st2.content c k := by
          unfold St.content dist; rw [hus, huh]
        rw [e1, this]
        rfl
      · simp only [abs, updateIndices]; split
        · simp only [hst3, hE.minB]; rfl
        · simp only [hst3, hE.minB]; rfl
      · simp only [abs, updateIndices]; split
        · simp only [hst3, hE.maxB]; rfl
        · simp only [hst3, hE.maxB]; rfl
      · funext bj
        simp only [abs, hub]
        simp only [hst3]
        rw [L.ok_modify, hE.bundles]
        simp only [hst1]; rw [L.ok_insert]
      · funext c k
        simp only [abs, hus]
        simp only [hst3]
        rw [hE.ok]
    · rw [hbundle]; simp
    · intro b0 h0; rw [hbi] at h0; cases h0
    · intro bj hne; rw [hbundle]; simp [hne]
    · intro c k a h
      have : st2.dist c k = some a := hE.keep c k a h
      unfold dist; rw [hus]; exact this

/-- applying `f` to all bins of a complete bundle -/
theorem applyBins_spec (f : D → D) (b : Bundle) : ∀ (l : List Nat) (st : St B D), l.Nodup →
    (∀ c ∈ l, (b.data c).isSome) → (∀ c ∈ l, ∀ c' ∈ l, b.data c = b.data c' → c = c') →
    ∃ st', applyBins f b l st = some st' ∧ st'.next = st.next ∧ st'.storage = st.storage ∧ st'.bundles = st.bundles ∧
      st'.minB = st.minB ∧ st'.maxB = st.maxB ∧
      (∀ c ∈ l, ∀ a, b.data c = some a → st'.heap a = f (st.heap a)) ∧
      (∀ a, (∀ c ∈ l, b.data c ≠ some a) → st'.heap a = st.heap a)
  | [], st, _, _, _ => ⟨st, rfl, rfl, rfl, rfl, rfl, rfl, fun _ h => absurd h List.not_mem_nil, fun _ _ => rfl⟩
  | c :: l, st, hnd, hs, hinj => by
    obtain ⟨a, ha⟩ := Option.isSome_iff_exists.1 (hs c (List.mem_cons_self ..))
    rw [List.nodup_cons] at hnd
    obtain ⟨st', h1, h2, h3, h4, h5, h6, h7, h8⟩ := applyBins_spec f b l { st with heap := Function.update st.heap a (f (st.heap a)) }
      hnd.2 (fun x hx => hs x (List.mem_cons_of_mem _ hx))
      (fun x hx y hy => hinj x (List.mem_cons_of_mem _ hx) y (List.mem_cons_of_mem _ hy))
    have hane : ∀ c' ∈ l, b.data c' ≠ some a := by
      intro c' hc' h
      have := hinj c (List.mem_cons_self ..) c' (List.mem_cons_of_mem _ hc') (by rw [ha, h])
      subst this; exact hnd.1 hc'
    refine ⟨st', ?_, h2, h3, h4, h5, h6, ?_, ?_⟩
    · simp only [applyBins, ha]; exact h1
    · intro c' hc' a' ha'
      rcases List.mem_cons.1 hc' with rfl | hc'
      · rw [ha] at ha'; cases ha'
        rw [h8 a hane]; simp
      · rw [h7 c' hc' a' ha']
        have : a' ≠ a := by rintro rfl; exact hane c' hc' ha'
        simp [Function.update_of_ne this]
    · intro a' h
      rw [h8 a' (fun c' hc' => h c' (List.mem_cons_of_mem _ hc'))]
      have : a' ≠ a := by rintro rfl; exact h c (List.mem_cons_self ..) ha
      simp [Function.update_of_ne this]

/-- `update` refines the abstract update. -/
theorem update_spec (L : B.Lawful) (dyn : Bool) (bi : Idx d) (f : D → D) (st : St B D) (hI : Inv L st) (hG : st.abs.Good bi) :
    ∃ st', update dyn bi f st = some st' ∧ Inv L st' ∧ st'.abs = st.abs.upd dyn bi f ∧
      (∀ bj, bj ≠ bi → st'.bundle bj = st.bundle bj) ∧ (∀ b0, st.bundle bi = some b0 → st'.bundle bi = some b0) ∧
      (∀ c k a, st.dist c k = some a → st'.dist c k = some a) := by
  obtain ⟨b, st1, h1, hI1, hA1, hb1, hsame, hother, hkeep⟩ := getAllocate_spec L dyn bi st hI hG
  unfold update
  simp only [h1, twoPow_eq]
  have hcomp := hI1.complete bi b hb1
  obtain ⟨st', h2, hn, hs, hbs, hmin, hmax, hh1, hh2⟩ := applyBins_spec f b (List.range (2 ^ d)) st1 List.nodup_range
    (fun c hc => by obtain ⟨a, ha, _⟩ := hcomp c (List.mem_range.1 hc); simp [ha])
    (by
      intro c hc c' hc' h
      obtain ⟨a, ha, hd⟩ := hcomp c (List.mem_range.1 hc)
      obtain ⟨a', ha', hd'⟩ := hcomp c' (List.mem_range.1 hc')
      rw [ha, ha'] at h; cases h
      exact (hI1.inj _ _ _ _ _ hd hd').1)
  have hdist : ∀ c k, st'.dist c k = st1.dist c k := fun c k => by unfold dist; rw [hs]
  have hbun : ∀ bj, st'.bundle bj = st1.bundle bj := fun bj => by unfold bundle; rw [hbs]
  refine ⟨st', h2, ?_, ?_, ?_, ?_, ?_⟩
  · refine { toInv0 := ⟨by rw [hs]; exact hI1.store, ?_, ?_⟩, bstore := by rw [hbs]; exact hI1.bstore, complete := ?_ }
    · intro c k a h; rw [hn]; rw [hdist] at h; exact hI1.fresh c k a h
    · intro c k c' k' a h h'; rw [hdist] at h h'; exact hI1.inj c k c' k' a h h'
    · intro bj b' h c hc
      rw [hbun] at h; rw [hdist]; exact hI1.complete bj b' h c hc
  · unfold Abs.upd
    rw [← hA1]
    ext1
    · funext bj; simp only [abs]; rw [hbun]
    · funext c k
      simp only [abs]
      unfold St.content
      rw [hdist]
      cases hd : st1.dist c k with
      | none => simp
      | some a =>
        simp only [Option.map_some]
        by_cases hc : c < 2 ^ d ∧ generateIndex bi c = k
        · obtain ⟨hc1, rfl⟩ := hc
          simp only [hc1, and_self, if_true]
          obtain ⟨a', ha', hd'⟩ := hcomp c hc1
          rw [hd] at hd'; cases hd'
          rw [hh1 c (List.mem_range.2 hc1) a ha']
        · rw [if_neg hc, hh2 a]
          intro c' hc' hbc
          obtain ⟨a', ha', hd'⟩ := hcomp c' (List.mem_range.1 hc')
          rw [hbc] at ha'; cases ha'
          obtain ⟨rfl, rfl⟩ := hI1.inj _ _ _ _ _ hd hd'
          exact hc ⟨List.mem_range.1 hc', rfl⟩
    · exact hmin
    · exact hmax
    · simp only [abs]; rw [hbs]
    · simp only [abs]; rw [hs]
  · intro bj hne; rw [hbun]; exact hother bj hne
  · intro b0 h0; rw [hbun, hb1, (hsame b0 h0).1]
  · intro c k a h; rw [hdist]; exact hkeep c k a h

theorem setExpanded_spec (L : B.Lawful) (bi : Idx d) (st : St B D) (hI : Inv L st) (hok : B.ok st.bundles bi = true) :
    let st' : St B D := { st with bundles := B.modify st.bundles bi (fun b => { b with expand := false }) }
    Inv L st' ∧ st'.abs = st.abs.setExpanded bi := by
  intro st'
  have hb : ∀ bj, st'.bundle bj = if bj = bi then (st.bundle bi).map (fun b => { b with expand := false }) else st.bundle bj := by
    intro bj
    exact L.look_modify _ _ _ _ hI.bstore hok
  refine ⟨{ toInv0 := ⟨hI.store, hI.fresh, hI.inj⟩, bstore := L.inv_modify _ _ _ hI.bstore hok, complete := ?_ }, ?_⟩
  · intro bj b h c hc
    rw [hb] at h
    by_cases e : bj = bi
    · subst e
      rw [if_pos rfl] at h
      obtain ⟨b0, h0, rfl⟩ := Option.map_eq_some_iff.1 h
      exact hI.complete bj b0 h0 c hc
    · rw [if_neg e] at h; exact hI.complete bj b h c hc
  · unfold Abs.setExpanded
    ext1
    · funext bj
      simp only [abs]
      rw [hb]
      by_cases e : bj = bi
      · subst e; simp [Function.comp_def]
      · simp [e]
    · rfl
    · rfl
    · rfl
    · funext bj; exact L.ok_modify _ _ _ _
    · rfl

end St
end Ndt
