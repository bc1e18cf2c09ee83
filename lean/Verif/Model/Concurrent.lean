import Verif.Model.Sampling

/-!
Model of several threads that call `const` member functions of the same map (`CN/map/abstract_map.hpp:195-199, 290-306`, `CN/map/generic_map.hpp:110-141, 243-268`).

The members `min_bundle_index_`, `max_bundle_index_`, `storage_` and `bundle_storage_` are `mutable` and not protected by a mutex, and `getDistributionBundle() const` allocates missing bundles. A thread is a list of calls; a call that allocates
is a sequence of steps, each of which reads or writes one of the members. A schedule is an arbitrary list of the threads that take the steps.

Simplifications: the steps themselves are atomic and sequentially consistent, i.e. the behaviours of the model are a part of those of the program, which are undefined as soon as there is a data race. A call that only reads is one step (its accesses
are listed all at once).
-/

namespace Ndt.Conc

/-- the shared data of a map: the bundle storage, the `c`-th distribution storage, the pointers in the bundle at `bi`, the distribution objects, and the bounds -/
inductive Loc (d : Nat) where
  | bundles
  | storage (c : Nat)
  | bins (bi : Idx d)
  | dists
  | minB
  | maxB

/-- an access to shared data -/
structure Access (d : Nat) where
  loc : Loc d
  write : Bool

/-- Two accesses of different threads conflict (C++ standard, [intro.races]) if they refer to the same location and at least one of them is a write. -/
def Access.Conflict {d : Nat} (x y : Access d) : Prop := x.loc = y.loc ∧ (x.write = true ∨ y.write = true)

/-- calls of `const` member functions -/
inductive Call (d : Nat) (K D : Type) where
  /-- `getDistributionBundle(bi) const` -/
  | lookup (bi : Idx d)
  /-- `get(bi) const` -/
  | get (bi : Idx d)
  /-- `getBundleIndices(...) const` -/
  | indices
  /-- `getMinBundleIndex() const`, `getMaxBundleIndex() const` -/
  | bounds
  /-- sampling at the bundle `bi` (`sampleNonNormalized`, `sampleNonNormalizedBilinear`) with the weights `w` of the bins and the values `f` of the distributions -/
  | sample (w : Nat → K) (f : D → K) (bi : Idx d)

/-- results of calls; a pointer to a bundle is its index -/
inductive Res (d : Nat) (K : Type) where
  | pointer (p : Option (Idx d))
  | indices (l : List (Idx d))
  | bounds (lo hi : Idx d)
  | value (v : K)

/-- where a thread is -/
inductive PC (d : Nat) where
  /-- between two calls -/
  | idle
  /-- before `bundle_storage_->insert(bi, …)` (`CN/map/abstract_map.hpp:297`) -/
  | insertBundle (bi : Idx d)
  /-- before reading `bundle->at(i)` (`299-300`) for the first of the remaining bins -/
  | bin (bi : Idx d) (l : List (Nat × Idx d))
  /-- before `s->get(i)` (`286`) -/
  | distGet (bi : Idx d) (c : Nat) (k : Idx d) (l : List (Nat × Idx d))
  /-- before `s->insert(i, content_t())` (`287`) -/
  | distInsert (bi : Idx d) (c : Nat) (k : Idx d) (l : List (Nat × Idx d))
  /-- before writing `bundle->at(i)` (`301`) -/
  | binWrite (bi : Idx d) (c : Nat) (a : Nat) (l : List (Nat × Idx d))
  /-- before reading `min_bundle_index_` (`CN/map/generic_map.hpp:289`) -/
  | readMin (bi : Idx d)
  | writeMin (bi : Idx d) (m : Idx d)
  | readMax (bi : Idx d)
  | writeMax (bi : Idx d) (m : Idx d)

structure Thread (d : Nat) (K D : Type) where
  pc : PC d
  todo : List (Call d K D)
  out : List (Res d K)

structure Config {d : Nat} (B : Backend d) (K D : Type) where
  shared : St B D
  thr : Nat → Thread d K D

section
variable {d : Nat} {B : Backend d} {K D : Type} [Inhabited D] [Field K]

/-- a call returns -/
def Thread.finish (t : Thread d K D) (r : Res d K) : Thread d K D := { pc := .idle, todo := t.todo.tail, out := t.out ++ [r] }

/-- a call on a map that nobody else uses, by the sequential model: its result and the map afterwards; `none`: out of contract -/
def Call.alone (dyn : Bool) (st : St B D) : Call d K D → Option (Res d K × St B D)
  | .lookup bi => (st.getDistributionBundle dyn bi).map fun x => (.pointer (x.1.map fun _ => bi), x.2)
  | .get bi => (st.getBundle dyn bi).map fun x => (.pointer (x.map fun _ => bi), st)
  | .indices => some (.indices st.bundleIndices, st)
  | .bounds => some (.bounds st.minB st.maxB, st)
  | .sample w f bi => (st.sampleWith dyn w f bi).map fun x => (.value x, st)

/-- the result of a call on a map that nobody else uses -/
def Call.result (dyn : Bool) (st : St B D) (c : Call d K D) : Option (Res d K) := (c.alone dyn st).map Prod.fst

/-- the shared data that a thread accesses in its next step -/
def accesses (t : Thread d K D) : List (Access d) :=
  match t.pc with
  | .idle =>
    match t.todo with
    | [] => []
    | .lookup _ :: _ => [⟨.minB, false⟩, ⟨.maxB, false⟩, ⟨.bundles, false⟩]
    | .get _ :: _ => [⟨.minB, false⟩, ⟨.maxB, false⟩, ⟨.bundles, false⟩]
    | .indices :: _ => [⟨.bundles, false⟩]
    | .bounds :: _ => [⟨.minB, false⟩, ⟨.maxB, false⟩]
    | .sample _ _ bi :: _ => [⟨.minB, false⟩, ⟨.maxB, false⟩, ⟨.bundles, false⟩, ⟨.bins bi, false⟩, ⟨.dists, false⟩]
  | .insertBundle _ => [⟨.bundles, true⟩]
  | .bin _ [] => []
  | .bin bi (_ :: _) => [⟨.bins bi, false⟩]
  | .distGet _ c _ _ => [⟨.storage c, false⟩]
  | .distInsert _ c _ _ => [⟨.storage c, true⟩]
  | .binWrite bi _ _ _ => [⟨.bins bi, true⟩]
  | .readMin _ => [⟨.minB, false⟩]
  | .writeMin _ _ => [⟨.minB, true⟩]
  | .readMax _ => [⟨.maxB, false⟩]
  | .writeMax _ _ => [⟨.maxB, true⟩]

/-- two threads are about to access the same data, one of them writing -/
def Race (cfg : Config B K D) (i j : Nat) : Prop := i ≠ j ∧ ∃ x ∈ accesses (cfg.thr i), ∃ y ∈ accesses (cfg.thr j), x.Conflict y

/-- one step of a thread on the shared data; `none`: out of contract -/
def threadStep (dyn : Bool) (st : St B D) (t : Thread d K D) : Option (St B D × Thread d K D) :=
  match t.pc with
  | .idle =>
    match t.todo with
    | [] => some (st, t)
    | .lookup bi :: _ =>
      if st.valid dyn bi then
        if B.ok st.bundles bi then
          match B.get st.bundles bi with
          | some _ => some (st, t.finish (.pointer (some bi)))
          | none => some (st, { t with pc := .insertBundle bi })
        else none
      else some (st, t.finish (.pointer none))
    | c :: _ => (c.result dyn st).map fun r => (st, t.finish r)
  | .insertBundle bi => some ({ st with bundles := B.insert st.bundles bi Bundle.new }, { t with pc := .bin bi (applyIndices bi 0 (twoPow d)) })
  | .bin bi [] => some (st, if dyn then { t with pc := .readMin bi } else t.finish (.pointer (some bi)))
  | .bin bi ((c, k) :: l) =>
    match B.get st.bundles bi with
    | none => none
    | some b => some (st, { t with pc := match b.data c with
        | some _ => .bin bi l
        | none => .distGet bi c k l })
  | .distGet bi c k l =>
    if B.ok (st.storage c) k then
      some (st, { t with pc := match B.get (st.storage c) k with
        | some a => .binWrite bi c a l
        | none => .distInsert bi c k l })
    else none
  | .distInsert bi c k l => some ({ st with
      heap := Function.update st.heap st.next default
      next := st.next + 1
      storage := Function.update st.storage c (B.insert (st.storage c) k st.next) }, { t with pc := .binWrite bi c st.next l })
  | .binWrite bi c a l => some ({ st with bundles := B.modify st.bundles bi (fun b => { b with data := Function.update b.data c (some a) }) }, { t with pc := .bin bi l })
  | .readMin bi => some (st, { t with pc := .writeMin bi (fun a => min (st.minB a) (bi a)) })
  | .writeMin bi m => some ({ st with minB := m }, { t with pc := .readMax bi })
  | .readMax bi => some (st, { t with pc := .writeMax bi (fun a => max (st.maxB a) (bi a)) })
  | .writeMax bi m => some ({ st with maxB := m }, t.finish (.pointer (some bi)))

/-- thread `i` takes a step -/
def Config.step (dyn : Bool) (cfg : Config B K D) (i : Nat) : Option (Config B K D) :=
  (threadStep dyn cfg.shared (cfg.thr i)).map fun x => { shared := x.1, thr := Function.update cfg.thr i x.2 }

/-- the threads of the schedule take steps, in that order -/
def Config.run (dyn : Bool) : List Nat → Config B K D → Option (Config B K D)
  | [], cfg => some cfg
  | i :: l, cfg => (cfg.step dyn i).bind (Config.run dyn l)

/-- the threads before their first call -/
def Config.start (st : St B D) (prog : Nat → List (Call d K D)) : Config B K D := { shared := st, thr := fun i => { pc := .idle, todo := prog i, out := [] } }

/-- thread `i` has returned from all its calls -/
def Config.Done (cfg : Config B K D) (i : Nat) : Prop := (cfg.thr i).pc = .idle ∧ (cfg.thr i).todo = []

end
end Ndt.Conc
