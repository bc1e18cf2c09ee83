import Verif.Model.Concurrent
import Verif.Proofs.MapAbs

/-! Lemmas about several threads on one map: runs of threads that only read, and the run of one thread through an allocation. -/

namespace Ndt.Conc
variable {d : Nat} {B : Backend d} {K D : Type} [Inhabited D] [Field K]

theorem run_append (dyn : Bool) : ∀ (l l' : List Nat) (cfg : Config B K D), Config.run dyn (l ++ l') cfg = (Config.run dyn l cfg).bind (Config.run dyn l')
  | [], _, _ => rfl
  | i :: l, l', cfg => by
    simp only [List.cons_append, Config.run, Option.bind_assoc]
    congr 1
    funext c
    exact run_append dyn l l' c

/-- the configuration in which thread `i` has become `t` and the map `st` -/
def Config.put (cfg : Config B K D) (st : St B D) (i : Nat) (t : Thread d K D) : Config B K D := { shared := st, thr := Function.update cfg.thr i t }

@[simp] theorem put_shared (cfg : Config B K D) (st : St B D) (i : Nat) (t : Thread d K D) : (cfg.put st i t).shared = st := rfl
@[simp] theorem put_self (cfg : Config B K D) (st : St B D) (i : Nat) (t : Thread d K D) : (cfg.put st i t).thr i = t := Function.update_self ..
theorem put_other (cfg : Config B K D) (st : St B D) (i j : Nat) (t : Thread d K D) (h : j ≠ i) : (cfg.put st i t).thr j = cfg.thr j := Function.update_of_ne h ..
@[simp] theorem put_put (cfg : Config B K D) (st st' : St B D) (i : Nat) (t t' : Thread d K D) : (cfg.put st i t).put st' i t' = cfg.put st' i t' := by
  simp [Config.put]

theorem step_eq (dyn : Bool) (cfg : Config B K D) (i : Nat) (st : St B D) (t : Thread d K D) (h : threadStep dyn cfg.shared (cfg.thr i) = some (st, t)) :
    cfg.step dyn i = some (cfg.put st i t) := by
  unfold Config.step; rw [h]; rfl

/-- a step followed by a run -/
theorem run_cons (dyn : Bool) (cfg : Config B K D) (i : Nat) (st : St B D) (t : Thread d K D) (l : List Nat)
    (h : threadStep dyn cfg.shared (cfg.thr i) = some (st, t)) : Config.run dyn (i :: l) cfg = Config.run dyn l (cfg.put st i t) := by
  simp only [Config.run, step_eq dyn cfg i st t h, Option.bind_some]

/-! ### threads that only read -/

/-- what holds while the threads only read: thread `i` has returned from its first `n i` calls -/
structure Reading (dyn : Bool) (st : St B D) (prog : Nat → List (Call d K D)) (n : Nat → Nat) (cfg : Config B K D) : Prop where
  shared : cfg.shared = st
  pc : ∀ i, (cfg.thr i).pc = .idle
  todo : ∀ i, (cfg.thr i).todo = (prog i).drop (n i)
  out : ∀ i, (cfg.thr i).out.map some = ((prog i).take (n i)).map (Call.result dyn st)

/-- A call that has a result and does not look up a bundle that is missing is finished in one step that leaves the map as it is. -/
theorem threadStep_read (dyn : Bool) (st : St B D) (t : Thread d K D) (c : Call d K D) (l : List (Call d K D)) (r : Res d K) (hpc : t.pc = .idle)
    (htodo : t.todo = c :: l) (hr : c.result dyn st = some r) (hc : ∀ bi, c = .lookup bi → st.valid dyn bi = true → (st.bundle bi).isSome = true) :
    threadStep dyn st t = some (st, t.finish r) := by
  unfold threadStep
  rw [hpc, htodo]
  cases c with
  | lookup bi =>
    simp only [Call.result, Call.alone, St.getDistributionBundle] at hr ⊢
    by_cases hv : st.valid dyn bi = true
    · have hb := hc bi rfl hv
      unfold St.bundle Backend.look at hb
      by_cases hok : B.ok st.bundles bi = true
      · rw [if_pos hok] at hb
        obtain ⟨b, hb⟩ := Option.isSome_iff_exists.1 hb
        simp only [hv, if_true, St.getAllocate, hok, hb, Option.map_some, Option.some.injEq] at hr ⊢
        rw [hr]
      · rw [if_neg hok] at hb; cases hb
    · simp only [hv, Bool.false_eq_true, if_false, Option.map_some, Option.map_none, Option.some.injEq] at hr ⊢
      rw [hr]
  | get bi => simp only [hr, Option.map_some]
  | indices => simp only [hr, Option.map_some]
  | bounds => simp only [hr, Option.map_some]
  | sample w f bi => simp only [hr, Option.map_some]

theorem Reading.step {dyn : Bool} {st : St B D} {prog : Nat → List (Call d K D)} {n : Nat → Nat} {cfg : Config B K D} (h : Reading dyn st prog n cfg)
    (hdef : ∀ i, ∀ c ∈ prog i, (c.result dyn st).isSome = true)
    (hpre : ∀ i bi, .lookup bi ∈ prog i → st.valid dyn bi = true → (st.bundle bi).isSome = true) (i : Nat) :
    ∃ cfg', cfg.step dyn i = some cfg' ∧ Reading dyn st prog (Function.update n i (n i + 1)) cfg' := by
  by_cases hlt : n i < (prog i).length
  · have hc : (prog i)[n i] ∈ prog i := List.getElem_mem _
    obtain ⟨r, hr⟩ := Option.isSome_iff_exists.1 (hdef i _ hc)
    have htodo : (cfg.thr i).todo = (prog i)[n i] :: (prog i).drop (n i + 1) := by rw [h.todo i]; exact List.drop_eq_getElem_cons hlt
    have hs := threadStep_read dyn st (cfg.thr i) _ _ r (h.pc i) htodo hr (fun bi e hv => hpre i bi (e ▸ hc) hv)
    rw [← h.shared] at hs
    refine ⟨_, step_eq dyn cfg i _ _ hs, ?_⟩
    have key : ∀ j, (cfg.put cfg.shared i ((cfg.thr i).finish r)).thr j = if j = i then (cfg.thr i).finish r else cfg.thr j := by
      intro j
      by_cases hj : j = i
      · subst hj; rw [put_self, if_pos rfl]
      · rw [put_other _ _ _ _ _ hj, if_neg hj]
    constructor
    · exact h.shared
    · intro j; rw [key]; split
      · rfl
      · exact h.pc j
    · intro j; rw [key]; split
      · rename_i hj; subst hj
        rw [Function.update_self]
        show (cfg.thr j).todo.tail = _
        rw [htodo]; rfl
      · rename_i hj
        rw [Function.update_of_ne hj]; exact h.todo j
    · intro j; rw [key]; split
      · rename_i hj; subst hj
        rw [Function.update_self]
        show ((cfg.thr j).out ++ [r]).map some = _
        rw [List.map_append, h.out j, List.take_add_one, List.map_append, List.getElem?_eq_getElem hlt]
        simp [hr]
      · rename_i hj
        rw [Function.update_of_ne hj]; exact h.out j
  · have hge : (prog i).length ≤ n i := not_lt.1 hlt
    have htodo : (cfg.thr i).todo = [] := by rw [h.todo i]; exact List.drop_eq_nil_of_le hge
    have hs : threadStep dyn cfg.shared (cfg.thr i) = some (cfg.shared, cfg.thr i) := by
      unfold threadStep; rw [h.pc i, htodo]
    have hcfg : cfg.put cfg.shared i (cfg.thr i) = cfg := by
      unfold Config.put; rw [Function.update_eq_self]
    refine ⟨cfg, by rw [step_eq dyn cfg i _ _ hs, hcfg], h.shared, h.pc, ?_, ?_⟩
    · intro j
      by_cases hj : j = i
      · subst hj; rw [Function.update_self, htodo, List.drop_eq_nil_of_le (by omega)]
      · rw [Function.update_of_ne hj]; exact h.todo j
    · intro j
      by_cases hj : j = i
      · subst hj; rw [Function.update_self, h.out j, List.take_of_length_le hge, List.take_of_length_le (by omega)]
      · rw [Function.update_of_ne hj]; exact h.out j

theorem Reading.run {dyn : Bool} {st : St B D} {prog : Nat → List (Call d K D)}
    (hdef : ∀ i, ∀ c ∈ prog i, (c.result dyn st).isSome = true)
    (hpre : ∀ i bi, .lookup bi ∈ prog i → st.valid dyn bi = true → (st.bundle bi).isSome = true) :
    ∀ (s : List Nat) (n : Nat → Nat) (cfg : Config B K D), Reading dyn st prog n cfg →
      ∃ cfg', cfg.run dyn s = some cfg' ∧ Reading dyn st prog (fun i => n i + s.count i) cfg'
  | [], n, cfg, h => ⟨cfg, rfl, by simpa using h⟩
  | i :: s, n, cfg, h => by
    obtain ⟨c1, h1, r1⟩ := h.step hdef hpre i
    obtain ⟨c2, h2, r2⟩ := Reading.run hdef hpre s _ c1 r1
    refine ⟨c2, by rw [Config.run, h1]; exact h2, ?_⟩
    convert r2 using 1
    funext j
    rw [List.count_cons]
    by_cases hj : j = i
    · subst hj; rw [Function.update_self]; simp; omega
    · rw [Function.update_of_ne hj]; simp [Ne.symm hj]

/-! ### one thread through an allocation -/

theorem getAllocateDist_bundles (c : Nat) (k : Idx d) (st : St B D) (X : B.Store Bundle) :
    St.getAllocateDist c k { st with bundles := X } = (St.getAllocateDist c k st).map fun x => (x.1, { x.2 with bundles := X }) := by
  unfold St.getAllocateDist
  by_cases hok : B.ok (st.storage c) k = true
  · simp only [hok, if_true]
    cases B.get (st.storage c) k <;> rfl
  · simp only [hok, Bool.false_eq_true, if_false]; rfl

theorem allocBins_bundles (X : B.Store Bundle) : ∀ (l : List (Nat × Idx d)) (b : Bundle) (st : St B D),
    St.allocBins l b { st with bundles := X } = (St.allocBins l b st).map fun x => (x.1, { x.2 with bundles := X })
  | [], _, _ => rfl
  | (c, k) :: l, b, st => by
    simp only [St.allocBins]
    cases b.data c with
    | some a => exact allocBins_bundles X l b st
    | none =>
      simp only [getAllocateDist_bundles]
      cases St.getAllocateDist c k st with
      | none => rfl
      | some p => exact allocBins_bundles X l _ p.2

/-- the bundle storage `X` is the bundle storage `Y` in which the bundle at `bi` is `b` -/
structure Written (L : B.Lawful) (X Y : B.Store Bundle) (bi : Idx d) (b : Bundle) : Prop where
  inv : L.Inv X
  ok : ∀ j, B.ok X j = B.ok Y j
  look : ∀ j, B.look X j = if j = bi then some b else B.look Y j

/-- a thread goes through the bins of a bundle alone -/
theorem bins_run (L : B.Lawful) (dyn : Bool) (i : Nat) (bi : Idx d) : ∀ (l : List (Nat × Idx d)) (b : Bundle) (cfg : Config B K D) (b' : Bundle) (st2 : St B D),
    L.Inv cfg.shared.bundles → B.ok cfg.shared.bundles bi = true → B.look cfg.shared.bundles bi = some b → (cfg.thr i).pc = .bin bi l →
    St.allocBins l b cfg.shared = some (b', st2) →
    ∃ m X, cfg.run dyn (List.replicate m i) = some (cfg.put { st2 with bundles := X } i { cfg.thr i with pc := .bin bi [] }) ∧
      Written L X cfg.shared.bundles bi b'
  | [], b, cfg, b', st2, hinv, hok, hb, hpc, h => by
    cases h
    refine ⟨0, cfg.shared.bundles, ?_, hinv, fun _ => rfl, fun j => ?_⟩
    · show some cfg = some _
      congr 1
      unfold Config.put
      have : ({ cfg.thr i with pc := .bin bi [] } : Thread d K D) = cfg.thr i := by rw [← hpc]
      rw [this, Function.update_eq_self]
    · split
      · rename_i e; rw [e, hb]
      · rfl
  | (c, k) :: l, b, cfg, b', st2, hinv, hok, hb, hpc, h => by
    have hget : B.get cfg.shared.bundles bi = some b := by rw [← St.look_of_ok B _ _ hok, hb]
    simp only [St.allocBins] at h
    cases hbc : b.data c with
    | some a =>
      have s1 : threadStep dyn cfg.shared (cfg.thr i) = some (cfg.shared, { cfg.thr i with pc := .bin bi l }) := by
        unfold threadStep; simp only [hpc, hget, hbc]
      simp only [hbc] at h
      obtain ⟨m, X, hrun, hW⟩ := bins_run L dyn i bi l b (cfg.put cfg.shared i { cfg.thr i with pc := .bin bi l }) b' st2 hinv hok hb (by simp) h
      refine ⟨m + 1, X, ?_, hW⟩
      rw [List.replicate_succ, run_cons dyn cfg i _ _ _ s1, hrun]
      simp
    | none =>
      have s1 : threadStep dyn cfg.shared (cfg.thr i) = some (cfg.shared, { cfg.thr i with pc := .distGet bi c k l }) := by
        unfold threadStep; simp only [hpc, hget, hbc]
      simp only [hbc] at h
      -- the remaining steps once the address of the distribution is known
      have fin : ∀ (a : Nat) (st1 : St B D), st1.bundles = cfg.shared.bundles →
          St.allocBins l { b with data := Function.update b.data c (some a) } st1 = some (b', st2) →
          ∃ m X, Config.run dyn (List.replicate m i) (cfg.put st1 i { cfg.thr i with pc := .binWrite bi c a l }) =
            some (cfg.put { st2 with bundles := X } i { cfg.thr i with pc := .bin bi [] }) ∧ Written L X cfg.shared.bundles bi b' := by
        intro a st1 hst1 hal
        let Y := B.modify st1.bundles bi (fun b => { b with data := Function.update b.data c (some a) })
        have hok1 : B.ok st1.bundles bi = true := by rw [hst1]; exact hok
        have hinv1 : L.Inv st1.bundles := by rw [hst1]; exact hinv
        have s2 : threadStep dyn st1 ({ cfg.thr i with pc := .binWrite bi c a l } : Thread d K D) =
            some ({ st1 with bundles := Y }, { cfg.thr i with pc := .bin bi l }) := rfl
        have hlook : ∀ j, B.look Y j = if j = bi then some { b with data := Function.update b.data c (some a) } else B.look cfg.shared.bundles j := by
          intro j
          rw [L.look_modify _ _ _ _ hinv1 hok1, hst1, hb]; rfl
        have hal' : St.allocBins l { b with data := Function.update b.data c (some a) } { st1 with bundles := Y } = some (b', { st2 with bundles := Y }) := by
          rw [allocBins_bundles, hal]; rfl
        obtain ⟨m, X, hrun, hW⟩ := bins_run L dyn i bi l _ (cfg.put { st1 with bundles := Y } i { cfg.thr i with pc := .bin bi l }) b' { st2 with bundles := Y }
          (L.inv_modify _ _ _ hinv1 hok1) (by show B.ok Y bi = true; rw [L.ok_modify]; exact hok1) (by show B.look Y bi = _; rw [hlook, if_pos rfl]) (by simp) hal'
        refine ⟨m + 1, X, ?_, hW.inv, fun j => ?_, fun j => ?_⟩
        · rw [List.replicate_succ, run_cons dyn _ i _ _ _ (by rw [put_shared, put_self]; exact s2), put_put, hrun]
          simp
        · rw [hW.ok j]; show B.ok Y j = _; rw [L.ok_modify, hst1]
        · rw [hW.look j]
          split
          · rfl
          · rename_i hj
            show B.look Y j = _
            rw [hlook, if_neg hj]
      unfold St.getAllocateDist at h
      by_cases hokD : B.ok (cfg.shared.storage c) k = true
      · rw [if_pos hokD] at h
        cases hg : B.get (cfg.shared.storage c) k with
        | some a =>
          have s2 : threadStep dyn cfg.shared ({ cfg.thr i with pc := .distGet bi c k l } : Thread d K D) = some (cfg.shared, { cfg.thr i with pc := .binWrite bi c a l }) := by
            unfold threadStep; simp only [hokD, if_true, hg]
          simp only [hg] at h
          obtain ⟨m, X, hrun, hW⟩ := fin a cfg.shared rfl h
          refine ⟨m + 2, X, ?_, hW⟩
          rw [List.replicate_succ, run_cons dyn cfg i _ _ _ s1, List.replicate_succ, run_cons dyn _ i _ _ _ (by rw [put_shared, put_self]; exact s2), put_put, hrun]
        | none =>
          have s2 : threadStep dyn cfg.shared ({ cfg.thr i with pc := .distGet bi c k l } : Thread d K D) = some (cfg.shared, { cfg.thr i with pc := .distInsert bi c k l }) := by
            unfold threadStep; simp only [hokD, if_true, hg]
          simp only [hg] at h
          obtain ⟨m, X, hrun, hW⟩ := fin cfg.shared.next { cfg.shared with
            heap := Function.update cfg.shared.heap cfg.shared.next default
            next := cfg.shared.next + 1
            storage := Function.update cfg.shared.storage c (B.insert (cfg.shared.storage c) k cfg.shared.next) } rfl h
          refine ⟨m + 3, X, ?_, hW⟩
          rw [List.replicate_succ, run_cons dyn cfg i _ _ _ s1, List.replicate_succ, run_cons dyn _ i _ _ _ (by rw [put_shared, put_self]; exact s2), put_put,
            List.replicate_succ, run_cons dyn _ i _ _ _ (by rw [put_shared, put_self]; rfl), put_put, hrun]
      · rw [if_neg hokD] at h; cases h

/-- a thread looks up a bundle that is missing, alone, up to the update of the bounds -/
theorem lookup_run (L : B.Lawful) (dyn : Bool) (i : Nat) (bi : Idx d) (cfg : Config B K D) (rest : List (Call d K D)) (b' : Bundle) (st2 : St B D)
    (hinv : L.Inv cfg.shared.bundles) (hpc : (cfg.thr i).pc = .idle) (htodo : (cfg.thr i).todo = .lookup bi :: rest) (hv : cfg.shared.valid dyn bi = true)
    (hok : B.ok cfg.shared.bundles bi = true) (hmiss : cfg.shared.bundle bi = none)
    (h : St.allocBins (applyIndices bi 0 (twoPow d)) Bundle.new cfg.shared = some (b', st2)) :
    ∃ m X, cfg.run dyn (List.replicate m i) = some (cfg.put { st2 with bundles := X } i { cfg.thr i with pc := .bin bi [] }) ∧
      Written L X cfg.shared.bundles bi b' := by
  have hget : B.get cfg.shared.bundles bi = none := by rw [← St.look_of_ok B _ _ hok]; exact hmiss
  have s1 : threadStep dyn cfg.shared (cfg.thr i) = some (cfg.shared, { cfg.thr i with pc := .insertBundle bi }) := by
    unfold threadStep; simp only [hpc, htodo, hv, hok, if_true, hget]
  let Y := B.insert cfg.shared.bundles bi Bundle.new
  have s2 : threadStep dyn cfg.shared ({ cfg.thr i with pc := .insertBundle bi } : Thread d K D) =
      some ({ cfg.shared with bundles := Y }, { cfg.thr i with pc := .bin bi (applyIndices bi 0 (twoPow d)) }) := rfl
  have hlook : ∀ j, B.look Y j = if j = bi then some Bundle.new else B.look cfg.shared.bundles j := fun j => L.look_insert _ _ _ _ hinv hok hmiss
  have hal' : St.allocBins (applyIndices bi 0 (twoPow d)) Bundle.new { cfg.shared with bundles := Y } = some (b', { st2 with bundles := Y }) := by
    rw [allocBins_bundles, h]; rfl
  obtain ⟨m, X, hrun, hW⟩ := bins_run L dyn i bi _ _ (cfg.put { cfg.shared with bundles := Y } i { cfg.thr i with pc := .bin bi (applyIndices bi 0 (twoPow d)) }) b'
    { st2 with bundles := Y } (L.inv_insert _ _ _ hinv hok) (by show B.ok Y bi = true; rw [L.ok_insert]; exact hok)
    (by show B.look Y bi = _; rw [hlook, if_pos rfl]) (by simp) hal'
  refine ⟨m + 2, X, ?_, hW.inv, fun j => ?_, fun j => ?_⟩
  · rw [List.replicate_succ, run_cons dyn cfg i _ _ _ s1, List.replicate_succ, run_cons dyn _ i _ _ _ (by rw [put_shared, put_self]; exact s2), put_put, hrun]
    simp
  · rw [hW.ok j]; show B.ok Y j = _; rw [L.ok_insert]
  · rw [hW.look j]
    split
    · rfl
    · rename_i hj
      show B.look Y j = _
      rw [hlook, if_neg hj]

/-- the allocation of the bins succeeds if the storages cover the bundle -/
theorem allocBins_new (L : B.Lawful) (bi : Idx d) (st : St B D) (hI : St.Inv0 L st) (hok : ∀ c, c < 2 ^ d → B.ok (st.storage c) (generateIndex bi c) = true) :
    ∃ b' st', St.allocBins (applyIndices bi 0 (twoPow d)) Bundle.new st = some (b', st') ∧ St.Inv0 L st' ∧
      St.Ext (applyIndices bi 0 (twoPow d)) st st' := by
  obtain ⟨b', st', h1, h2, h3, _⟩ := St.allocBins_spec L (applyIndices bi 0 (twoPow d)) Bundle.new st hI
    (by rw [St.applyIndices_list, List.map_map]; simp [Function.comp_def, List.nodup_range]) (fun _ _ => rfl)
    (fun e he => by
      rw [St.applyIndices_list, List.mem_map] at he
      obtain ⟨c, hc, rfl⟩ := he
      exact hok c (List.mem_range.1 hc))
  exact ⟨b', st', h1, h2, h3⟩

end Ndt.Conc
