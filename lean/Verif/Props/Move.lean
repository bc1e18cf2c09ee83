import Verif.Model.Move
import Verif.Props.Lifetime
import Verif.Props.Mono

/-! Property theorems C86: moving maps; copying and moving single-resolution maps. -/

namespace Ndt
open St Abs

variable {K : Type} [Field K] [LinearOrder K] [IsStrictOrderedRing K] [FloorRing K] {d : Nat}

/-- **C86 (refuted, static maps).** Moving a static map and destroying the source, as happens with every temporary, leaves a map that must not be read: every bin of every bundle of the source could be read through the new map and refers to
a released object as soon as the source is gone, whatever was done with the new map in between. -/
theorem C86_static_move_refuted (g : Geo K d) (exp : Multiset (Pt K d) → Bool) (size : Fin d → Nat) (lo : Idx d) (st : St (arrayBackend d) (Multiset (Pt K d)))
    (hst : Reachable (.static size lo) g exp st) (ops : List (GridOp K d)) (T : Twin (arrayBackend d) (Multiset (Pt K d)))
    (h : (moveMap (.static size lo) st).run g false exp (ops.map fun op => (true, op)) = some T) (bi : Idx d) (hbi : bi ∈ st.bundleIndices) (c : Nat) (hc : c < 2 ^ d) :
    (T.viewC.readBin [] bi c).isSome = true ∧ T.viewC.readBin (released (.static size lo) T.viewO.storage) bi c = none :=
  C84_copy_dangling_refuted g exp size lo st hst _ T h bi hbi c hc

omit [IsStrictOrderedRing K] in
/-- **C86** (part). Moving a dynamic map and destroying the source leaves a map that reads as the source did before, and it behaves like the source from then on: every history runs on it as it would have run on the source. -/
theorem C86_dynamic_move_partial (g : Geo K d) (exp : Multiset (Pt K d) → Bool) (gs : Nat → Nat) (gb : Nat) (st : St (octreeBackend d) (Multiset (Pt K d))) (ops : List (GridOp K d)) :
    ((moveMap (.dynamic gs gb) st).run g true exp (ops.map fun op => (true, op))).map Twin.viewC = gridRun g true exp ops st ∧
    ∀ T, (moveMap (.dynamic gs gb) st).run g true exp (ops.map fun op => (true, op)) = some T → ∀ bi c,
      T.viewC.readBin (released (.dynamic gs gb) T.viewO.storage) bi c = T.viewC.readBin [] bi c := by
  refine ⟨?_, fun T _ bi c => rfl⟩
  have key : ∀ (ops : List (GridOp K d)) (T : Twin (octreeBackend d) (Multiset (Pt K d))), (T.run g true exp (ops.map fun op => (true, op))).map Twin.viewC = gridRun g true exp ops T.viewC := by
    intro ops
    induction ops with
    | nil => intro T; rfl
    | cons op l ih =>
      intro T
      show (((gridStep g true exp op T.viewC).map T.putC).bind _).map _ = (gridStep g true exp op T.viewC).bind _
      cases hs : gridStep g true exp op T.viewC with
      | none => rfl
      | some s =>
        show ((T.putC s).run g true exp (l.map fun op => (true, op))).map Twin.viewC = _
        rw [ih (T.putC s)]
        refine congrArg (gridRun g true exp l) ?_
        unfold Twin.putC Twin.viewC
        cases s
        dsimp only
        congr 1
        · funext c; split <;> rfl
        · split <;> rfl
  refine (key ops _).trans ?_
  rw [show (moveMap (.dynamic gs gb) st).viewC = st from (C20_copy_equal_dynamic_partial st).2]

omit [IsStrictOrderedRing K] in
/-- **C86 (refuted, dynamic maps).** The source of a move is not emptied: it keeps showing, and changing, the contents of the new map. -/
theorem C86_dynamic_alias_refuted (g : Geo K d) (exp : Multiset (Pt K d) → Bool) (gs : Nat → Nat) (gb : Nat) (st : St (octreeBackend d) (Multiset (Pt K d)))
    (hst : Reachable (.dynamic gs gb) g exp st) (hne : st.bundleIndices ≠ []) (hist : List (Bool × GridOp K d)) (T : Twin (octreeBackend d) (Multiset (Pt K d)))
    (h : (moveMap (.dynamic gs gb) st).run g true exp hist = some T) :
    (∀ c, c < 2 ^ d → ∀ i, T.viewC.content c i = T.viewO.content c i) ∧ ∀ bi, T.viewC.bundle bi = T.viewO.bundle bi := by
  obtain ⟨h1, h2⟩ := C20_dynamic_copy_aliases_refuted g exp gs gb st hst hne hist T h
  exact ⟨fun c hc i => (h1 c hc i).symm, fun bi => (h2 bi).symm⟩

/-- Non-vacuity: moved maps with a bundle and an operation on the new map. -/
def movedStatic : Option (Twin (arrayBackend 1) (Multiset (Pt ℚ 1))) :=
  lifeMap.bind fun st => (moveMap (.static ![2] ![0]) st).run oneGeo false oneExp ([GridOp.core (.bundleAt ![2])].map fun op => (true, op))

theorem movedStatic_runs : movedStatic.isSome = true := by decide +kernel

example : ∃ st T, Reachable (.static ![2] ![0]) oneGeo oneExp st ∧ (![0] : Idx 1) ∈ st.bundleIndices ∧
    (moveMap (.static ![2] ![0]) st).run oneGeo false oneExp ([GridOp.core (.bundleAt ![2])].map fun op => (true, op)) = some T := by
  refine ⟨lifeMap.get lifeMap_runs, movedStatic.get movedStatic_runs, ⟨[.core (.bundleAt ![0])], (Option.some_get lifeMap_runs).symm⟩, by decide +kernel, ?_⟩
  rw [Option.some_get]
  unfold movedStatic
  conv_rhs => rw [← Option.some_get lifeMap_runs]
  rfl

/-- a dynamic map with a point -/
def dynMoved : Option (St (octreeBackend 1) (Multiset (Pt ℚ 1))) := gridRun oneGeo true oneExp [.insert id [![1/2]]] ((Kind.dynamic (fun n => n + 8) 16).init _)

def movedDynamic : Option (Twin (octreeBackend 1) (Multiset (Pt ℚ 1))) :=
  dynMoved.bind fun st => (moveMap (.dynamic (fun n => n + 8) 16) st).run oneGeo true oneExp [(false, .insert id [![1/3]])]

theorem dynMoved_runs : dynMoved.isSome = true := by decide +kernel
theorem movedDynamic_runs : movedDynamic.isSome = true := by decide +kernel

/-- Non-vacuity: a point inserted into the source of a move appears in the new map. -/
example : ∃ st T, Reachable (.dynamic (fun n => n + 8) 16) oneGeo oneExp st ∧ st.bundleIndices ≠ [] ∧
    (moveMap (.dynamic (fun n => n + 8) 16) st).run oneGeo true oneExp [(false, .insert id [![1/3]])] = some T ∧ T.viewC.content 0 ![0] = some {![1/2], ![1/3]} := by
  refine ⟨dynMoved.get dynMoved_runs, movedDynamic.get movedDynamic_runs, ⟨[.insert id [![1/2]]], (Option.some_get dynMoved_runs).symm⟩, by decide +kernel, ?_, by decide +kernel⟩
  rw [Option.some_get]
  unfold movedDynamic
  conv_rhs => rw [← Option.some_get dynMoved_runs]
  rfl

/-! ### single-resolution maps -/

namespace MonoPair

/-- the operations of one of the two objects, in order -/
def opsOf (b : Bool) (hist : List (Bool × MonoOp K d)) : List (MonoOp K d) := (hist.filter fun x => x.1 == b).map Prod.snd

omit [IsStrictOrderedRing K] in
/-- **C86** (copies of single-resolution maps). Original and copy are independent: after any interleaving of operations on the two, each of them is what its own operations alone make of the map that was copied. -/
theorem C86_mono_copy_independent (g : Geo K d) (m : Mono d (Multiset (Pt K d))) (hist : List (Bool × MonoOp K d)) (P : MonoPair d (Multiset (Pt K d)))
    (h : (copy m).run g hist = some P) : monoRun g (opsOf false hist) m = some P.src ∧ monoRun g (opsOf true hist) m = some P.viewDst := by
  have key : ∀ (hist : List (Bool × MonoOp K d)) (Q P : MonoPair d (Multiset (Pt K d))), Q.shared = false → Q.run g hist = some P →
      P.shared = false ∧ monoRun g (opsOf false hist) Q.src = some P.src ∧ monoRun g (opsOf true hist) Q.dst = some P.dst := by
    intro hist
    induction hist with
    | nil => intro Q P hQ h; cases h; exact ⟨hQ, rfl, rfl⟩
    | cons x l ih =>
      intro Q P hQ h
      obtain ⟨b, op⟩ := x
      obtain ⟨Q1, h1, h2⟩ := Option.bind_eq_some_iff.1 h
      cases b with
      | false =>
        obtain ⟨s, hs, rfl⟩ := Option.map_eq_some_iff.1 h1
        obtain ⟨a1, a2, a3⟩ := ih (Q.putSrc s) P hQ h2
        refine ⟨a1, ?_, a3⟩
        show (monoStep g op Q.src).bind _ = _
        rw [hs]; exact a2
      | true =>
        obtain ⟨s, hs, rfl⟩ := Option.map_eq_some_iff.1 h1
        have hv : Q.viewDst = Q.dst := by unfold viewDst; rw [hQ]; rfl
        rw [hv] at hs
        obtain ⟨a1, a2, a3⟩ := ih (Q.putDst s) P hQ h2
        have e : (Q.putDst s).src = Q.src := by unfold putDst; rw [hQ]; rfl
        rw [e] at a2
        refine ⟨a1, a2, ?_⟩
        show (monoStep g op Q.dst).bind _ = _
        rw [hs]; exact a3
  obtain ⟨a1, a2, a3⟩ := key hist _ P rfl h
  refine ⟨a2, ?_⟩
  unfold viewDst; rw [a1]; exact a3

omit [IsStrictOrderedRing K] in
theorem monoStep_bounds (g : Geo K d) (op : MonoOp K d) (m m' : Mono d (Multiset (Pt K d))) (h : monoStep g op m = some m') : m'.size = m.size ∧ m'.lo = m.lo ∧ m'.hi = m.hi := by
  have hg : ∀ i (m m' : Mono d (Multiset (Pt K d))), m.getAllocate i = some m' → m'.size = m.size ∧ m'.lo = m.lo ∧ m'.hi = m.hi := by
    intro i m m' h
    unfold Mono.getAllocate at h
    split at h
    · split at h <;> (cases h; exact ⟨rfl, rfl, rfl⟩)
    · cases h
  cases op with
  | distributionAt i => exact hg i m m' h
  | insert p =>
    change Mono.insert g p m = some m' at h
    unfold Mono.insert at h
    split at h
    · cases h; exact ⟨rfl, rfl, rfl⟩
    · obtain ⟨s, hs, rfl⟩ := Option.map_eq_some_iff.1 h
      exact hg _ m s hs

omit [IsStrictOrderedRing K] in
/-- **C86 (refuted, single-resolution maps).** A moved single-resolution map shares its storage with the source for ever: after any interleaving of operations on the two objects both are what all the operations together make of the map
that was moved. -/
theorem C86_mono_move_aliases_refuted (g : Geo K d) (m : Mono d (Multiset (Pt K d))) (hist : List (Bool × MonoOp K d)) (P : MonoPair d (Multiset (Pt K d)))
    (h : (move m).run g hist = some P) : monoRun g (hist.map Prod.snd) m = some P.src ∧ P.viewDst = P.src := by
  have key : ∀ (hist : List (Bool × MonoOp K d)) (Q P : MonoPair d (Multiset (Pt K d))), Q.shared = true → Q.viewDst = Q.src → Q.run g hist = some P →
      P.viewDst = P.src ∧ monoRun g (hist.map Prod.snd) Q.src = some P.src := by
    intro hist
    induction hist with
    | nil => intro Q P _ hv h; cases h; exact ⟨hv, rfl⟩
    | cons x l ih =>
      intro Q P hQ hv h
      obtain ⟨b, op⟩ := x
      obtain ⟨Q1, h1, h2⟩ := Option.bind_eq_some_iff.1 h
      have hv' : (⟨Q.dst.size, Q.dst.lo, Q.dst.hi, Q.src.store⟩ : Mono d (Multiset (Pt K d))) = Q.src := by unfold viewDst at hv; rw [hQ] at hv; exact hv
      have e1 : Q.dst.size = Q.src.size := by rw [← hv']
      have e2 : Q.dst.lo = Q.src.lo := by rw [← hv']
      have e3 : Q.dst.hi = Q.src.hi := by rw [← hv']
      cases b with
      | false =>
        obtain ⟨s, hs, rfl⟩ := Option.map_eq_some_iff.1 h1
        obtain ⟨b1, b2, b3⟩ := monoStep_bounds g op _ s hs
        obtain ⟨a1, a2⟩ := ih (Q.putSrc s) P hQ (by
          unfold viewDst putSrc; rw [hQ]
          show (⟨Q.dst.size, Q.dst.lo, Q.dst.hi, s.store⟩ : Mono d _) = s
          rw [e1, e2, e3, ← b1, ← b2, ← b3]) h2
        refine ⟨a1, ?_⟩
        show (monoStep g op Q.src).bind _ = _
        rw [hs]; exact a2
      | true =>
        obtain ⟨s, hs, rfl⟩ := Option.map_eq_some_iff.1 h1
        rw [hv] at hs
        obtain ⟨b1, b2, b3⟩ := monoStep_bounds g op _ s hs
        have es : (Q.putDst s).src = s := by
          unfold putDst; rw [hQ]
          show (⟨Q.src.size, Q.src.lo, Q.src.hi, s.store⟩ : Mono d _) = s
          rw [← b1, ← b2, ← b3]
        obtain ⟨a1, a2⟩ := ih (Q.putDst s) P hQ (by
          unfold viewDst; rw [show (Q.putDst s).shared = true from hQ, es]; rfl) h2
        rw [es] at a2
        refine ⟨a1, ?_⟩
        show (monoStep g op Q.src).bind _ = _
        rw [hs]; exact a2
  obtain ⟨a1, a2⟩ := key hist _ P rfl rfl h
  exact ⟨a2, a1⟩

omit [IsStrictOrderedRing K] in
/-- **C86** (part). If the source of a moved single-resolution map is not used any more, the new map is what its own operations make of the map that was moved, also after the destruction of the source. -/
theorem C86_mono_move_partial (g : Geo K d) (m : Mono d (Multiset (Pt K d))) (ops : List (MonoOp K d)) (P : MonoPair d (Multiset (Pt K d)))
    (h : (move m).run g (ops.map fun op => (true, op)) = some P) : monoRun g ops m = some P.destroySrc := by
  obtain ⟨h1, h2⟩ := C86_mono_move_aliases_refuted g m _ P h
  have : (ops.map fun op => ((true, op) : Bool × MonoOp K d)).map Prod.snd = ops := by rw [List.map_map]; exact List.map_id ops
  rw [this] at h1
  rw [h1]; exact congrArg some h2.symm

/-- a map of 2 cells of size 1 -/
def twoMono : Mono 1 (Multiset (Pt ℚ 1)) := Mono.init ![2] ![0]

def pairCopy : Option (MonoPair 1 (Multiset (Pt ℚ 1))) := (copy twoMono).run oneGeo [(true, .insert ![1/2]), (false, .insert ![1/3]), (true, .distributionAt ![1])]
def pairMove : Option (MonoPair 1 (Multiset (Pt ℚ 1))) := (move twoMono).run oneGeo [(false, .insert ![1/3])]
theorem pairCopy_runs : pairCopy.isSome = true := by decide +kernel
theorem pairMove_runs : pairMove.isSome = true := by decide +kernel

/-- Non-vacuity: a history on a map and its copy, resp. on a moved map and its source; the point inserted into the source appears in the moved map, not in the copy. -/
example : ∃ P Q, (copy twoMono).run oneGeo [(true, .insert ![1/2]), (false, .insert ![1/3]), (true, .distributionAt ![1])] = some P ∧
    (move twoMono).run oneGeo [(false, .insert ![1/3])] = some Q ∧ P.viewDst.store.cells ![0] = some {![1/2]} ∧ Q.viewDst.store.cells ![0] = some {![1/3]} :=
  ⟨(pairCopy.get pairCopy_runs), (pairMove.get pairMove_runs), (Option.some_get pairCopy_runs).symm, (Option.some_get pairMove_runs).symm, by decide +kernel, by decide +kernel⟩

end MonoPair

end Ndt
