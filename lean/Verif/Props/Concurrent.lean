import Verif.Proofs.Concurrent
import Verif.Proofs.SerialMap
import Verif.Proofs.GridmapMore
import Mathlib.Algebra.Order.Ring.Rat
import Mathlib.Algebra.Field.Rat

/-!
C76: concurrent calls of `const` functions of one map.

Full statement: any number of threads may call `const` functions of the same map at the same time; there is no data race, and every call returns what it returns on a map that nobody else uses. This is false of the code, because the `const` lookup
allocates. It holds for programs that look up only bundles that exist (or that lie outside a static map).
-/

namespace Ndt
open Conc

namespace Spec

/-- The maps have the same objects, storages, bundles and bounds. -/
structure SameMap {d : Nat} {B : Backend d} {D : Type} [Inhabited D] (st st' : St B D) : Prop where
  heap : st'.heap = st.heap
  storage : st'.storage = st.storage
  bundle : ∀ bi, st'.bundle bi = st.bundle bi
  minB : st'.minB = st.minB
  maxB : st'.maxB = st.maxB

end Spec

section
variable {d : Nat} {K D : Type} [Field K] [Inhabited D]

/-- C76 (what holds): if no thread looks up a missing bundle (and every call is within the contract), then for any number of threads, any programs and any schedule, no two threads are ever about to make conflicting accesses, the map stays as it is, and
every thread gets, call by call, the results that it gets alone: after `n` steps of thread `i` those of its first `n` calls.
Missing: lookups of missing bundles, for which it is false (`C76_race_refuted`, `C76_race_bounds_refuted`, `C76_lost_bounds_refuted`). -/
theorem C76_readers_partial {B : Backend d} (dyn : Bool) (st : St B D) (prog : Nat → List (Call d K D))
    (hdef : ∀ i, ∀ c ∈ prog i, (c.result dyn st).isSome = true)
    (hpre : ∀ i bi, .lookup bi ∈ prog i → st.valid dyn bi = true → (st.bundle bi).isSome = true) (s : List Nat) :
    ∃ cfg, (Config.start st prog).run dyn s = some cfg ∧ cfg.shared = st ∧ (∀ i j, ¬ Race cfg i j) ∧
      ∀ i, (cfg.thr i).out.map some = ((prog i).take (s.count i)).map (Call.result dyn st) := by
  obtain ⟨cfg, h1, h2⟩ := Reading.run hdef hpre s (fun _ => 0) (Config.start st prog) ⟨rfl, fun _ => rfl, fun _ => rfl, fun _ => rfl⟩
  refine ⟨cfg, h1, h2.shared, ?_, fun i => ?_⟩
  · have hr : ∀ i, ∀ x ∈ accesses (cfg.thr i), x.write = false := by
      intro i x hx
      unfold accesses at hx
      rw [h2.pc i] at hx
      revert hx
      cases (cfg.thr i).todo with
      | nil => intro hx; cases hx
      | cons c l =>
        cases c <;> intro hx <;> simp only [List.mem_cons, List.not_mem_nil, or_false] at hx
        · rcases hx with rfl | rfl | rfl <;> rfl
        · rcases hx with rfl | rfl | rfl <;> rfl
        · rw [hx]
        · rcases hx with rfl | rfl <;> rfl
        · rcases hx with rfl | rfl | rfl | rfl | rfl <;> rfl
    rintro i j ⟨_, x, hx, y, hy, _, h | h⟩
    · rw [hr i x hx] at h; cases h
    · rw [hr j y hy] at h; cases h
  · have := h2.out i
    simpa using this

/-- The accesses of a step cover what it changes: the bounds, a distribution storage, the bundle storage, or the pointers in one bundle. -/
theorem C76_writes_covered {B : Backend d} (dyn : Bool) (st st' : St B D) (t t' : Thread d K D) (h : threadStep dyn st t = some (st', t')) :
    (st'.minB = st.minB ∨ ⟨.minB, true⟩ ∈ accesses t) ∧ (st'.maxB = st.maxB ∨ ⟨.maxB, true⟩ ∈ accesses t) ∧
    (∀ c, st'.storage c = st.storage c ∨ ⟨.storage c, true⟩ ∈ accesses t) ∧
    (st'.bundles = st.bundles ∨ ⟨.bundles, true⟩ ∈ accesses t ∨ ∃ bi f, ⟨.bins bi, true⟩ ∈ accesses t ∧ st'.bundles = B.modify st.bundles bi f) ∧
    ∀ a < st.next, st'.heap a = st.heap a := by
  have same : st' = st → (st'.minB = st.minB ∨ ⟨.minB, true⟩ ∈ accesses t) ∧ (st'.maxB = st.maxB ∨ ⟨.maxB, true⟩ ∈ accesses t) ∧
      (∀ c, st'.storage c = st.storage c ∨ ⟨.storage c, true⟩ ∈ accesses t) ∧
      (st'.bundles = st.bundles ∨ ⟨.bundles, true⟩ ∈ accesses t ∨ ∃ bi f, ⟨.bins bi, true⟩ ∈ accesses t ∧ st'.bundles = B.modify st.bundles bi f) ∧
      ∀ a < st.next, st'.heap a = st.heap a := by
    rintro rfl; exact ⟨Or.inl rfl, Or.inl rfl, fun _ => Or.inl rfl, Or.inl rfl, fun _ _ => rfl⟩
  cases hpc : t.pc with
  | idle =>
    refine same ?_
    unfold threadStep at h
    rw [hpc] at h
    cases ht : t.todo with
    | nil => simp only [ht] at h; cases h; rfl
    | cons c l =>
      simp only [ht] at h
      cases c with
      | lookup bi =>
        simp only at h
        split at h
        · split at h
          · split at h <;> cases h <;> rfl
          · cases h
        · cases h; rfl
      | _ => obtain ⟨r, _, hr⟩ := Option.map_eq_some_iff.1 h; exact (Prod.mk.inj hr).1.symm
  | bin bi l =>
    refine same ?_
    unfold threadStep at h
    rw [hpc] at h
    cases l with
    | nil => cases h; rfl
    | cons e l =>
      simp only at h
      split at h
      · cases h
      · cases h; rfl
  | distGet bi c k l =>
    refine same ?_
    unfold threadStep at h
    simp only [hpc] at h
    split at h
    · cases h; rfl
    · cases h
  | readMin bi => refine same ?_; unfold threadStep at h; rw [hpc] at h; cases h; rfl
  | readMax bi => refine same ?_; unfold threadStep at h; rw [hpc] at h; cases h; rfl
  | insertBundle bi =>
    unfold threadStep at h; rw [hpc] at h; cases h
    exact ⟨Or.inl rfl, Or.inl rfl, fun _ => Or.inl rfl, Or.inr (Or.inl (by unfold accesses; rw [hpc]; exact List.mem_singleton.2 rfl)), fun _ _ => rfl⟩
  | distInsert bi c k l =>
    unfold threadStep at h; rw [hpc] at h; cases h
    refine ⟨Or.inl rfl, Or.inl rfl, fun c' => ?_, Or.inl rfl, fun a ha => Function.update_of_ne (Nat.ne_of_lt ha) ..⟩
    by_cases hc : c' = c
    · subst hc; exact Or.inr (by unfold accesses; rw [hpc]; exact List.mem_singleton.2 rfl)
    · exact Or.inl (Function.update_of_ne hc ..)
  | binWrite bi c a l =>
    unfold threadStep at h; rw [hpc] at h; cases h
    exact ⟨Or.inl rfl, Or.inl rfl, fun _ => Or.inl rfl, Or.inr (Or.inr ⟨bi, _, by unfold accesses; rw [hpc]; exact List.mem_singleton.2 rfl, rfl⟩), fun _ _ => rfl⟩
  | writeMin bi m =>
    unfold threadStep at h; rw [hpc] at h; cases h
    exact ⟨Or.inr (by unfold accesses; rw [hpc]; exact List.mem_singleton.2 rfl), Or.inl rfl, fun _ => Or.inl rfl, Or.inl rfl, fun _ _ => rfl⟩
  | writeMax bi m =>
    unfold threadStep at h; rw [hpc] at h; cases h
    exact ⟨Or.inl rfl, Or.inr (by unfold accesses; rw [hpc]; exact List.mem_singleton.2 rfl), fun _ => Or.inl rfl, Or.inl rfl, fun _ _ => rfl⟩

/-- The accesses of a step cover what it reads: in two maps that agree on the accessed data (and in which the allocator returns the same address), the thread continues in the same way. -/
theorem C76_reads_covered {B : Backend d} (dyn : Bool) (st st' : St B D) (t : Thread d K D) (hnext : st'.next = st.next)
    (hmin : ∀ w, ⟨.minB, w⟩ ∈ accesses t → st'.minB = st.minB) (hmax : ∀ w, ⟨.maxB, w⟩ ∈ accesses t → st'.maxB = st.maxB)
    (hstorage : ∀ c w, ⟨.storage c, w⟩ ∈ accesses t → st'.storage c = st.storage c) (hbundles : ∀ w, ⟨.bundles, w⟩ ∈ accesses t → st'.bundles = st.bundles)
    (hbins : ∀ bi w, ⟨.bins bi, w⟩ ∈ accesses t → B.get st'.bundles bi = B.get st.bundles bi) (hdists : ∀ w, ⟨.dists, w⟩ ∈ accesses t → st'.heap = st.heap) :
    (threadStep dyn st' t).map Prod.snd = (threadStep dyn st t).map Prod.snd := by
  cases hpc : t.pc with
  | idle =>
    unfold threadStep
    simp only [hpc]
    cases ht : t.todo with
    | nil => rfl
    | cons c l =>
      have acc : accesses t = accesses { t with pc := .idle, todo := c :: l } := by rw [← hpc, ← ht]
      rw [acc] at hmin hmax hbundles hbins hdists
      cases c with
      | lookup bi =>
        have e1 := hmin false (by simp [accesses])
        have e2 := hmax false (by simp [accesses])
        have e3 := hbundles false (by simp [accesses])
        have hv : st'.valid dyn bi = st.valid dyn bi := by unfold St.valid; rw [e1, e2]
        simp only [hv, e3]
        by_cases h1 : st.valid dyn bi = true
        · by_cases h2 : B.ok st.bundles bi = true
          · simp only [h1, h2, if_true]
            cases B.get st.bundles bi <;> rfl
          · simp only [h1, h2, if_true, Bool.false_eq_true, if_false]
        · simp only [h1, Bool.false_eq_true, if_false]; rfl
      | get bi =>
        have e1 := hmin false (by simp [accesses])
        have e2 := hmax false (by simp [accesses])
        have e3 := hbundles false (by simp [accesses])
        have hv : st'.valid dyn bi = st.valid dyn bi := by unfold St.valid; rw [e1, e2]
        have hg : st'.getBundle dyn bi = st.getBundle dyn bi := by unfold St.getBundle; rw [hv, e3]
        simp only [Call.result, Call.alone, hg, Option.map_map, Function.comp_def]
      | indices =>
        have e3 := hbundles false (by simp [accesses])
        simp only [Call.result, Call.alone, St.bundleIndices, e3, Option.map_some]
      | bounds =>
        have e1 := hmin false (by simp [accesses])
        have e2 := hmax false (by simp [accesses])
        simp only [Call.result, Call.alone, e1, e2, Option.map_some]
      | sample w f bi =>
        have e1 := hmin false (by simp [accesses])
        have e2 := hmax false (by simp [accesses])
        have e3 := hbundles false (by simp [accesses])
        have e4 := hdists false (by simp [accesses])
        have hv : st'.valid dyn bi = st.valid dyn bi := by unfold St.valid; rw [e1, e2]
        have hg : st'.sampleWith dyn w f bi = st.sampleWith dyn w f bi := by unfold St.sampleWith St.evaluate; rw [hv, e3, e4]
        simp only [Call.result, Call.alone, hg, Option.map_map, Function.comp_def]
  | bin bi l =>
    cases l with
    | nil => unfold threadStep; simp only [hpc, Option.map_some]
    | cons e l =>
      have e1 := hbins bi false (by unfold accesses; rw [hpc]; exact List.mem_singleton.2 rfl)
      unfold threadStep
      simp only [hpc, e1]
      split <;> rfl
  | distGet bi c k l =>
    have e1 := hstorage c false (by unfold accesses; rw [hpc]; exact List.mem_singleton.2 rfl)
    unfold threadStep
    simp only [hpc, e1]
    split <;> rfl
  | distInsert bi c k l => unfold threadStep; simp only [hpc, Option.map_some, hnext]
  | readMin bi =>
    have e1 := hmin false (by unfold accesses; rw [hpc]; exact List.mem_singleton.2 rfl)
    unfold threadStep; simp only [hpc, Option.map_some, e1]
  | readMax bi =>
    have e1 := hmax false (by unfold accesses; rw [hpc]; exact List.mem_singleton.2 rfl)
    unfold threadStep; simp only [hpc, Option.map_some, e1]
  | insertBundle bi => unfold threadStep; simp only [hpc, Option.map_some]
  | binWrite bi c a l => unfold threadStep; simp only [hpc, Option.map_some]
  | writeMin bi m => unfold threadStep; simp only [hpc, Option.map_some]
  | writeMax bi m => unfold threadStep; simp only [hpc, Option.map_some]

/-- C76 (the steps of the model are those of the sequential model): a thread that makes one call on a map and runs alone returns from it with the result, and leaves the map, of the sequential model. -/
theorem C76_alone (k : Kind d) (exp : D → Bool) (st : St k.backend D) (hR : MapReachable k exp st) (c : Call d K D) (r : Res d K) (st' : St k.backend D)
    (h : c.alone k.dyn st = some (r, st')) (i : Nat) :
    ∃ n cfg, (Config.start st (fun j => if j = i then [c] else [])).run k.dyn (List.replicate n i) = some cfg ∧ cfg.Done i ∧ (cfg.thr i).out = [r] ∧
      Spec.SameMap st' cfg.shared := by
  have hI := hR.spec.1.inv
  let cfg0 : Config k.backend K D := Config.start st (fun j => if j = i then [c] else [])
  have hthr : cfg0.thr i = { pc := .idle, todo := [c], out := [] } := by simp [cfg0, Config.start]
  -- calls that are finished in one step
  have one : (∀ bi, c = .lookup bi → st.valid k.dyn bi = true → (st.bundle bi).isSome = true) → st' = st →
      ∃ n cfg, cfg0.run k.dyn (List.replicate n i) = some cfg ∧ cfg.Done i ∧ (cfg.thr i).out = [r] ∧ Spec.SameMap st' cfg.shared := by
    rintro hc rfl
    have hs := threadStep_read k.dyn st' (cfg0.thr i) c [] r (by rw [hthr]) (by rw [hthr]) (by unfold Call.result; rw [h]; rfl) hc
    refine ⟨1, _, run_cons k.dyn cfg0 i _ _ [] hs, ?_, ?_, rfl, rfl, fun _ => rfl, rfl, rfl⟩
    · refine ⟨?_, ?_⟩
      · rw [put_self]; rfl
      · rw [put_self, hthr]; rfl
    · rw [put_self, hthr]; rfl
  cases c with
  | get bi =>
    refine one (fun _ e => by cases e) ?_
    obtain ⟨x, _, hx⟩ := Option.map_eq_some_iff.1 h
    exact (Prod.mk.inj hx).2.symm
  | indices => exact one (fun _ e => by cases e) (Prod.mk.inj (Option.some.inj h)).2.symm
  | bounds => exact one (fun _ e => by cases e) (Prod.mk.inj (Option.some.inj h)).2.symm
  | sample w f bi =>
    refine one (fun _ e => by cases e) ?_
    obtain ⟨x, _, hx⟩ := Option.map_eq_some_iff.1 h
    exact (Prod.mk.inj hx).2.symm
  | lookup bi =>
    obtain ⟨⟨p, s1⟩, hg, hx⟩ := Option.map_eq_some_iff.1 h
    obtain ⟨hr, hs1⟩ := Prod.mk.inj hx
    simp only at hr hs1
    unfold St.getDistributionBundle at hg
    by_cases hv : st.valid k.dyn bi = true
    · rw [if_pos hv] at hg
      cases hga : st.getAllocate k.dyn bi with
      | none => simp only [hga] at hg; cases hg
      | some q =>
        obtain ⟨b, s2⟩ := q
        simp only [hga] at hg
        obtain ⟨hp, hs2⟩ := Prod.mk.inj (Option.some.inj hg)
        have hgood := St.good_of_getAllocate k.lawful k.dyn bi st hI _ hga
        have hok : k.backend.ok st.bundles bi = true := hgood.1
        cases hb : st.bundle bi with
        | some b0 =>
          have hget : k.backend.get st.bundles bi = some b0 := by rw [← St.look_of_ok _ _ _ hok]; exact hb
          simp only [St.getAllocate, hok, if_true, hget] at hga
          refine one (fun bj e hv => by cases e; rw [hb]; rfl) ?_
          rw [← hs1, ← hs2]
          exact (Prod.mk.inj (Option.some.inj hga)).2.symm
        | none =>
          have hget : k.backend.get st.bundles bi = none := by rw [← St.look_of_ok _ _ _ hok]; exact hb
          obtain ⟨b', st2, hal, hI2, hE⟩ := allocBins_new k.lawful bi st hI.toInv0 hgood.2
          simp only [St.getAllocate, hok, if_true, hget, allocBins_bundles, hal, Option.map_some] at hga
          obtain ⟨hbb, hss⟩ := Prod.mk.inj (Option.some.inj hga)
          obtain ⟨m, X, hrun, hW⟩ := lookup_run k.lawful k.dyn i bi cfg0 [] b' st2 hI.bstore (by rw [hthr]) (by rw [hthr]) hv hok hb hal
          have hlook : ∀ j, k.backend.look X j = k.backend.look (k.backend.modify (k.backend.insert st.bundles bi Bundle.new) bi (fun _ => b')) j := by
            intro j
            rw [hW.look j, k.lawful.look_modify _ _ _ _ (k.lawful.inv_insert _ _ _ hI.bstore hok) (by rw [k.lawful.ok_insert]; exact hok)]
            rw [k.lawful.look_insert _ _ _ _ hI.bstore hok hb, k.lawful.look_insert _ _ _ _ hI.bstore hok hb, if_pos rfl]
            split
            · rfl
            · rfl
          have hout : [Res.pointer (K := K) (some bi)] = [r] := by rw [← hr, ← hp]; rfl
          rw [← hs1, ← hs2, ← hss]
          rw [hthr] at hrun
          cases hd : k.dyn with
          | false =>
            refine ⟨m + 1, cfg0.put { st2 with bundles := X } i { pc := .idle, todo := [], out := [.pointer (some bi)] }, ?_, ?_, ?_, ?_⟩
            · rw [List.replicate_succ', run_append, ← hd, hrun, Option.bind_some,
                run_cons k.dyn _ i _ _ [] (by rw [put_shared, put_self]; rfl), put_put, hd]
              rfl
            · exact ⟨by rw [put_self], by rw [put_self]⟩
            · rw [put_self]; exact hout
            · exact ⟨rfl, rfl, hlook, rfl, rfl⟩
          | true =>
            refine ⟨m + 1 + 1 + 1 + 1 + 1, cfg0.put { st2 with bundles := X, minB := fun a => min (st2.minB a) (bi a), maxB := fun a => max (st2.maxB a) (bi a) } i
              { pc := .idle, todo := [], out := [.pointer (some bi)] }, ?_, ?_, ?_, ?_⟩
            · simp only [List.replicate_succ', run_append]
              rw [← hd, hrun]
              simp only [hd, Option.bind_some]
              rw [run_cons true _ i _ _ [] (by rw [put_shared, put_self]; rfl), put_put]
              simp only [Config.run, Option.bind_some]
              rw [step_eq true _ i _ _ (by rw [put_shared, put_self]; rfl), put_put]
              simp only [Option.bind_some]
              rw [step_eq true _ i _ _ (by rw [put_shared, put_self]; rfl), put_put]
              simp only [Option.bind_some]
              rw [step_eq true _ i _ _ (by rw [put_shared, put_self]; rfl), put_put]
              simp only [Option.bind_some]
              rw [step_eq true _ i _ _ (by rw [put_shared, put_self]; rfl), put_put]
              rfl
            · exact ⟨by rw [put_self], by rw [put_self]⟩
            · rw [put_self]; exact hout
            · exact ⟨rfl, rfl, hlook, rfl, rfl⟩
    · rw [if_neg hv] at hg
      refine one (fun bj e hv' => by cases e; exact absurd hv' hv) ?_
      rw [← hs1]
      exact (Prod.mk.inj (Option.some.inj hg)).2.symm

/-- C76 is false: on any map, a lookup of a missing bundle in one thread and any other `const` function that uses the bundle storage, of any bundle, in another thread: after the first step of the lookup, thread 0 is about to write to the storage and
thread 1 to read it, i.e. there is a data race. -/
theorem C76_race_refuted {B : Backend d} (dyn : Bool) (st : St B D) (bi : Idx d) (hv : st.valid dyn bi = true) (hok : B.ok st.bundles bi = true)
    (hmiss : st.bundle bi = none) (c : Call d K D) (hc : c ≠ .bounds) :
    ∃ cfg, (Config.start st (fun j => if j = 0 then [.lookup bi] else [c])).run dyn [0] = some cfg ∧ Race cfg 0 1 := by
  have hget : B.get st.bundles bi = none := by rw [← St.look_of_ok B _ _ hok]; exact hmiss
  let cfg0 : Config B K D := Config.start st (fun j => if j = 0 then [.lookup bi] else [c])
  have s1 : threadStep dyn cfg0.shared (cfg0.thr 0) = some (st, { pc := .insertBundle bi, todo := [.lookup bi], out := [] }) := by
    show threadStep dyn st { pc := .idle, todo := [.lookup bi], out := [] } = _
    unfold threadStep; simp only [hv, hok, if_true, hget]
  refine ⟨_, run_cons dyn cfg0 0 _ _ [] s1, Nat.zero_ne_one, ⟨.bundles, true⟩, ?_, ⟨.bundles, false⟩, ?_, rfl, Or.inl rfl⟩
  · rw [put_self]; exact List.mem_singleton.2 rfl
  · rw [put_other _ _ _ _ _ Nat.one_ne_zero]
    show _ ∈ accesses ({ pc := .idle, todo := [c], out := [] } : Thread d K D)
    cases c with
    | bounds => exact absurd rfl hc
    | _ => simp [accesses]

/-- C76 is false: on a dynamic map a lookup of a missing bundle in one thread races with any function that reads the bounds in another thread. -/
theorem C76_race_bounds_refuted (g : Nat → Nat) (g' : Nat) (exp : D → Bool) (st : St (Kind.dynamic (d := d) g g').backend D)
    (hR : MapReachable (Kind.dynamic g g') exp st) (bi : Idx d) (hgood : st.abs.Good bi) (hmiss : st.bundle bi = none) :
    ∃ n cfg, (Config.start (K := K) st (fun j => if j = 0 then [.lookup bi] else [.bounds])).run true (List.replicate n 0) = some cfg ∧ Race cfg 0 1 := by
  have hI := hR.spec.1.inv
  obtain ⟨b', st2, hal, _, _⟩ := allocBins_new _ bi st hI.toInv0 hgood.2
  let cfg0 : Config _ K D := Config.start st (fun j => if j = 0 then [.lookup bi] else [.bounds])
  obtain ⟨m, X, hrun, _⟩ := lookup_run _ true 0 bi cfg0 [] b' st2 hI.bstore rfl rfl rfl hgood.1 hmiss hal
  refine ⟨m + 1 + 1, cfg0.put { st2 with bundles := X } 0 { pc := .writeMin bi (fun a => min (st2.minB a) (bi a)), todo := [.lookup bi], out := [] }, ?_,
    Nat.zero_ne_one, ⟨.minB, true⟩, ?_, ⟨.minB, false⟩, ?_, rfl, Or.inl rfl⟩
  · simp only [List.replicate_succ', run_append]
    rw [hrun, Option.bind_some, run_cons true _ 0 _ _ [] (by rw [put_shared, put_self]; rfl), put_put]
    simp only [Config.run, Option.bind_some]
    rw [step_eq true _ 0 _ _ (by rw [put_shared, put_self]; rfl), put_put]
    rfl
  · rw [put_self]; exact List.mem_singleton.2 rfl
  · rw [put_other _ _ _ _ _ Nat.one_ne_zero]
    show _ ∈ accesses ({ pc := .idle, todo := [.bounds], out := [] } : Thread d K D)
    simp [accesses]

/-- C76 is false, and the damage stays: on a dynamic map whose bounds the missing bundle `bi` would extend (axis `a`), two threads look up `bi` and `bj`; there is a schedule after which both have returned, both bundles exist, but the bounds of
the map do not include `bi`. -/
theorem C76_lost_bounds_refuted (g : Nat → Nat) (g' : Nat) (exp : D → Bool) (st : St (Kind.dynamic (d := d) g g').backend D)
    (hR : MapReachable (Kind.dynamic g g') exp st) (bi bj : Idx d) (hgi : st.abs.Good bi) (hgj : st.abs.Good bj) (hmi : st.bundle bi = none)
    (hmj : st.bundle bj = none) (a : Fin d) (hij : bi a < bj a) (hlo : bi a < st.minB a) :
    ∃ s cfg, (Config.start (K := K) st (fun j => if j = 0 then [.lookup bi] else if j = 1 then [.lookup bj] else [])).run true s = some cfg ∧
      (∀ i, cfg.Done i) ∧ (cfg.shared.bundle bi).isSome = true ∧ (cfg.shared.bundle bj).isSome = true ∧ bi a < cfg.shared.minB a := by
  have hI := hR.spec.1.inv
  let L := (Kind.dynamic (d := d) g g').lawful
  have hne : bj ≠ bi := fun e => by rw [e] at hij; exact lt_irrefl _ hij
  obtain ⟨b0, st0, hal0, hI0, hE0⟩ := allocBins_new L bi st hI.toInv0 hgi.2
  let cfg0 : Config _ K D := Config.start st (fun j => if j = 0 then [.lookup bi] else if j = 1 then [.lookup bj] else [])
  obtain ⟨m0, X0, hrun0, hW0⟩ := lookup_run L true 0 bi cfg0 [] b0 st0 hI.bstore rfl rfl rfl hgi.1 hmi hal0
  -- thread 0 has read the bounds and not yet written them
  let t0 : Thread d K D := { pc := .writeMin bi (fun a => min (st0.minB a) (bi a)), todo := [.lookup bi], out := [] }
  let stX : St (Kind.dynamic (d := d) g g').backend D := { st0 with bundles := X0 }
  let cfg1 : Config _ K D := cfg0.put stX 0 t0
  have r1 : cfg0.run true (List.replicate m0 0 ++ [0, 0]) = some cfg1 := by
    rw [run_append, hrun0, Option.bind_some, run_cons true _ 0 _ _ [0] (by rw [put_shared, put_self]; rfl), put_put,
      run_cons true _ 0 _ _ [] (by rw [put_shared, put_self]; rfl), put_put]
    rfl
  have hIX : St.Inv0 L stX := ⟨hI0.store, hI0.fresh, hI0.inj⟩
  have hokX : (octreeBackend d).ok stX.bundles bj = true := (hW0.ok bj).trans hgj.1
  have hmX : stX.bundle bj = none := by
    show (octreeBackend d).look X0 bj = none
    rw [hW0.look bj, if_neg hne]; exact hmj
  obtain ⟨b1, st1, hal1, _, hE1⟩ := allocBins_new L bj stX hIX (fun c hc => by
    show (octreeBackend d).ok (st0.storage c) _ = true
    exact (hE0.ok c _).trans (hgj.2 c hc))
  have hthr1 : cfg1.thr 1 = { pc := .idle, todo := [.lookup bj], out := [] } := by
    show (cfg0.put stX 0 t0).thr 1 = _
    rw [put_other _ _ _ _ _ Nat.one_ne_zero]; rfl
  obtain ⟨m1, X1, hrun1, hW1⟩ := lookup_run L true 1 bj cfg1 [] b1 st1 hW0.inv (by rw [hthr1]) (by rw [hthr1]) rfl hokX hmX hal1
  rw [hthr1] at hrun1
  -- thread 1 runs to the end, except that thread 0 writes the lower bound between its reading and its writing
  let stY : St (Kind.dynamic (d := d) g g').backend D := { st1 with bundles := X1 }
  have hmin1 : st1.minB = st.minB := hE1.minB.trans hE0.minB
  have r2 : cfg1.run true (List.replicate m1 1 ++ [1, 1, 0, 1, 1, 1, 0, 0]) = some
      ((cfg1.put { stY with
          minB := fun a => min (st1.minB a) (bj a)
          maxB := fun a => max (max (st1.maxB a) (bj a)) (bi a) } 1 { pc := .idle, todo := [], out := [.pointer (some bj)] }).put { stY with
          minB := fun a => min (st1.minB a) (bj a)
          maxB := fun a => max (max (st1.maxB a) (bj a)) (bi a) } 0 { pc := .idle, todo := [], out := [.pointer (some bi)] }) := by
    have comm : ∀ (s s' : St (Kind.dynamic (d := d) g g').backend D) (u v : Thread d K D), (cfg1.put s 1 u).put s' 0 v = (cfg1.put s 0 v).put s' 1 u := by
      intro s s' u v
      unfold Config.put
      simp only
      rw [Function.update_comm Nat.zero_ne_one]
    rw [run_append, hrun1, Option.bind_some]
    rw [run_cons true _ 1 _ _ _ (by rw [put_shared, put_self]; rfl), put_put]
    rw [run_cons true _ 1 _ _ _ (by rw [put_shared, put_self]; rfl), put_put]
    rw [run_cons true _ 0 _ _ _ (by rw [put_shared, put_other _ _ _ _ _ Nat.zero_ne_one]; show threadStep true _ (cfg1.thr 0) = _; rw [show cfg1.thr 0 = t0 from put_self ..]; rfl)]
    rw [comm]
    rw [run_cons true _ 1 _ _ _ (by rw [put_shared, put_self]; rfl), put_put]
    rw [run_cons true _ 1 _ _ _ (by rw [put_shared, put_self]; rfl), put_put]
    rw [run_cons true _ 1 _ _ _ (by rw [put_shared, put_self]; rfl), put_put]
    rw [← comm]
    rw [run_cons true _ 0 _ _ _ (by rw [put_shared, put_self]; rfl), put_put]
    rw [run_cons true _ 0 _ _ _ (by rw [put_shared, put_self]; rfl), put_put]
    rfl
  refine ⟨(List.replicate m0 0 ++ [0, 0]) ++ (List.replicate m1 1 ++ [1, 1, 0, 1, 1, 1, 0, 0]), _, by rw [run_append, r1, Option.bind_some, r2], ?_, ?_, ?_, ?_⟩
  · intro i
    by_cases h0 : i = 0
    · subst h0; exact ⟨by rw [put_self], by rw [put_self]⟩
    · by_cases h1 : i = 1
      · subst h1; unfold Config.Done; rw [put_other _ _ _ _ _ h0, put_self]; exact ⟨rfl, rfl⟩
      · unfold Config.Done
        rw [put_other _ _ _ _ _ h0, put_other _ _ _ _ _ h1]
        show (cfg1.thr i).pc = _ ∧ (cfg1.thr i).todo = _
        rw [show cfg1.thr i = cfg0.thr i from put_other _ _ _ _ _ h0]
        refine ⟨rfl, ?_⟩
        show (if i = 0 then _ else if i = 1 then _ else _) = _
        rw [if_neg h0, if_neg h1]
  · show ((octreeBackend d).look X1 bi).isSome = true
    rw [hW1.look bi, if_neg (Ne.symm hne)]
    show ((octreeBackend d).look X0 bi).isSome = true
    rw [hW0.look bi, if_pos rfl]; rfl
  · show ((octreeBackend d).look X1 bj).isSome = true
    rw [hW1.look bj, if_pos rfl]; rfl
  · show bi a < min (st1.minB a) (bj a)
    rw [hmin1]
    exact lt_min hlo hij

/-- C76 is false: two threads look up the same missing bundle of any map; there is a schedule in which thread 1 has returned a bundle whose pointers to distributions are all null (a lookup that runs alone returns a bundle whose pointers are all set,
`C76_alone_complete`). -/
theorem C76_incomplete_refuted {B : Backend d} (L : B.Lawful) (dyn : Bool) (st : St B D) (hinv : L.Inv st.bundles) (bi : Idx d) (hv : st.valid dyn bi = true)
    (hok : B.ok st.bundles bi = true) (hmiss : st.bundle bi = none) :
    ∃ s cfg b, (Config.start (K := K) st (fun _ => [.lookup bi])).run dyn s = some cfg ∧ (cfg.thr 1).out = [.pointer (some bi)] ∧ cfg.shared.bundle bi = some b ∧
      ∀ c, b.data c = none := by
  have hget : B.get st.bundles bi = none := by rw [← St.look_of_ok B _ _ hok]; exact hmiss
  let cfg0 : Config B K D := Config.start st (fun _ => [.lookup bi])
  let st1 : St B D := { st with bundles := B.insert st.bundles bi Bundle.new }
  have hlook : B.look st1.bundles bi = some Bundle.new := by
    show B.look (B.insert st.bundles bi Bundle.new) bi = _
    rw [L.look_insert _ _ _ _ hinv hok hmiss, if_pos rfl]
  have hok1 : B.ok st1.bundles bi = true := (L.ok_insert _ _ _ _).trans hok
  have hget1 : B.get st1.bundles bi = some Bundle.new := by rw [← St.look_of_ok B _ _ hok1]; exact hlook
  have s1 : threadStep dyn cfg0.shared (cfg0.thr 0) = some (st, { pc := .insertBundle bi, todo := [.lookup bi], out := [] }) := by
    show threadStep dyn st { pc := .idle, todo := [.lookup bi], out := [] } = _
    unfold threadStep; simp only [hv, hok, if_true, hget]
  have s3 : threadStep dyn st1 ({ pc := .idle, todo := [.lookup bi], out := [] } : Thread d K D) = some (st1, { pc := .idle, todo := [], out := [.pointer (some bi)] }) := by
    have hv1 : st1.valid dyn bi = true := hv
    unfold threadStep; simp only [hv1, hok1, if_true, hget1]; rfl
  refine ⟨[0, 0, 1], (cfg0.put st1 0 { pc := .bin bi (applyIndices bi 0 (twoPow d)), todo := [.lookup bi], out := [] }).put st1 1
    { pc := .idle, todo := [], out := [.pointer (some bi)] }, Bundle.new, ?_, ?_, hlook, fun _ => rfl⟩
  · rw [run_cons dyn cfg0 0 _ _ _ s1, run_cons dyn _ 0 _ _ _ (by rw [put_shared, put_self]; rfl), put_put,
      run_cons dyn _ 1 _ _ _ (by rw [put_shared, put_other _ _ _ _ _ Nat.one_ne_zero]; exact s3)]
    rfl
  · rw [put_self]

/-- alone, the lookup returns a bundle whose pointers are all set -/
theorem C76_alone_complete (k : Kind d) (exp : D → Bool) (st : St k.backend D) (hR : MapReachable k exp st) (bi : Idx d) (b : Bundle) (st' : St k.backend D)
    (h : st.getDistributionBundle k.dyn bi = some (some b, st')) (c : Nat) (hc : c < 2 ^ d) : ∃ a, b.data c = some a := by
  have hI := hR.spec.1.inv
  unfold St.getDistributionBundle at h
  split at h
  · cases hga : st.getAllocate k.dyn bi with
    | none => simp only [hga] at h; cases h
    | some q =>
      simp only [hga] at h
      obtain ⟨hb, hs⟩ := Prod.mk.inj (Option.some.inj h)
      obtain ⟨b', st2, h1, h2, _, h4, _⟩ := St.getAllocate_spec k.lawful k.dyn bi st hI (St.good_of_getAllocate k.lawful k.dyn bi st hI q hga)
      rw [hga] at h1
      cases h1
      rw [show b' = b from Option.some.inj hb] at h4
      obtain ⟨a, ha, _⟩ := h2.complete bi b h4 c hc
      exact ⟨a, ha⟩
  · cases h

end

/-- a static map of 3 x 3 cells on which the bundle (1, 1) has been looked up -/
def lookedUp : St (arrayBackend 2) Nat := ((((Kind.static ![3, 3] ![0, 0]).init Nat).getDistributionBundle false ![1, 1]).get (by decide +kernel)).2

/-- Non-vacuity of `C76_readers_partial`: thread 0 looks up the bundle that exists and one outside the map, thread 1 looks up the same bundle, lists the bundles and samples, all other threads read the bounds; and the programs are not all empty of
results: the second call of thread 1 returns the one bundle. -/
example : ∃ prog : Nat → List (Call 2 ℚ Nat), (∀ i, ∀ c ∈ prog i, (c.result false lookedUp).isSome = true) ∧
    (∀ i bi, .lookup bi ∈ prog i → lookedUp.valid false bi = true → (lookedUp.bundle bi).isSome = true) ∧
    lookedUp.valid false ![1, 1] = true ∧ Call.result (K := ℚ) false lookedUp .indices = some (.indices [![1, 1]]) := by
  refine ⟨fun i => if i = 0 then [.lookup ![1, 1], .lookup ![7, 7]] else if i = 1 then [.lookup ![1, 1], .indices, .sample (fun _ => 1) (fun n => (n : ℚ)) ![1, 1]] else [.bounds],
    ?_, ?_, by decide +kernel, ?_⟩
  · intro i c hc
    simp only at hc
    split at hc
    · simp only [List.mem_cons, List.not_mem_nil, or_false] at hc
      rcases hc with rfl | rfl <;> decide +kernel
    · split at hc
      · simp only [List.mem_cons, List.not_mem_nil, or_false] at hc
        rcases hc with rfl | rfl | rfl <;> decide +kernel
      · simp only [List.mem_cons, List.not_mem_nil, or_false] at hc
        subst hc; decide +kernel
  · intro i bi hc
    simp only at hc
    split at hc
    · simp only [List.mem_cons, List.not_mem_nil, or_false, Call.lookup.injEq] at hc
      rcases hc with rfl | rfl <;> decide +kernel
    · split at hc
      · simp only [List.mem_cons, List.not_mem_nil, or_false, Call.lookup.injEq, reduceCtorEq] at hc
        subst hc; decide +kernel
      · simp only [List.mem_cons, List.not_mem_nil, or_false, reduceCtorEq] at hc
  · have h : lookedUp.bundleIndices = [![1, 1]] := by decide +kernel
    show some (Res.indices _) = _
    rw [h]

/-- Non-vacuity of `C76_alone` and `C76_race_refuted`: on the same map the bundle (0, 1) is missing, and its lookup returns a pointer. -/
example : lookedUp.valid false ![0, 1] = true ∧ (arrayBackend 2).ok lookedUp.bundles ![0, 1] = true ∧ lookedUp.bundle ![0, 1] = none ∧
    (Call.result (K := ℚ) false lookedUp (.lookup ![0, 1])).isSome = true :=
  ⟨by decide +kernel, by decide +kernel, by
    have : (lookedUp.bundle ![0, 1]).isNone = true := by decide +kernel
    exact Option.isNone_iff_eq_none.1 this, by decide +kernel⟩

/-- Non-vacuity of `C76_race_bounds_refuted` and `C76_lost_bounds_refuted`: an empty dynamic map and the bundles (0, 0) and (1, 0). -/
example : MapReachable (Kind.dynamic (d := 2) (fun _ => 0) 0) (fun _ : Nat => true) ((Kind.dynamic (fun _ => 0) 0).init Nat) ∧
    ((Kind.dynamic (fun _ => 0) 0).init Nat).abs.Good ![0, 0] ∧ ((Kind.dynamic (fun _ => 0) 0).init Nat).abs.Good ![1, 0] ∧
    ((Kind.dynamic (fun _ => 0) 0).init Nat).bundle ![0, 0] = none ∧ ((Kind.dynamic (fun _ => 0) 0).init Nat).bundle ![1, 0] = none ∧
    (![0, 0] : Idx 2) 0 < (![1, 0] : Idx 2) 0 ∧ (![0, 0] : Idx 2) 0 < ((Kind.dynamic (d := 2) (fun _ => 0) 0).init Nat).minB 0 :=
  ⟨.init, dynamic_good Nat _ _ _ (by unfold Spec.InRange; decide), dynamic_good Nat _ _ _ (by unfold Spec.InRange; decide), Kind.init_bundle .., Kind.init_bundle ..,
    by decide, by decide⟩

end Ndt
