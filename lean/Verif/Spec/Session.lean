import Verif.Model.Serial
import Verif.Model.Convert
import Verif.Model.Move

/-! Sessions: the life of a map that is filled in several stages, and saved, loaded, copied, moved and converted in between. -/

namespace Ndt.Spec

/-- The maps `m` that a user may hold after carrying out the operations `ops`, in this order, starting with the map `m0`. Between the operations the map may be replaced, any number of times, by the map loaded from the
directory it was just saved to, by a static map converted back, by a copy, or by a map that it was moved to.

`run pose resolution` carries out operations on a map with this origin and resolution; `io` and `F` are the file formats; `conv` copies a distribution in a conversion. -/
inductive Session {d : Nat} {K P D Op : Type} [Inhabited D] (io : Io K P) (F : Fmt D) (conv : D → D → D)
    (run : P → K → List Op → St (octreeBackend d) D → Option (St (octreeBackend d) D)) (m0 : MapObj (octreeBackend d) K P D) : List Op → MapObj (octreeBackend d) K P D → Prop
  /-- nothing done yet -/
  | start : Session io F conv run m0 [] m0
  /-- further operations -/
  | work (ops ops' : List Op) (m : MapObj (octreeBackend d) K P D) (st : St (octreeBackend d) D) : Session io F conv run m0 ops m → run m.pose m.resolution ops' m.st = some st →
      Session io F conv run m0 (ops ++ ops') { m with st := st }
  /-- the map is saved to any directory, with any interleaving of the writers, and then loaded with any complete schedule of the loader threads; its numbers have to be representable in the files -/
  | reload (ops : List Op) (m m' : MapObj (octreeBackend d) K P D) (h : Header K P d) (old : Option Dir)
      (t : SaveTrace d old (headerBytes io h) fun c => storageBytes io F m.st.heap (m.st.storage c))
      (canOpen : Nat → Bool) (sched : List Nat) (f : Nat → Nat) (f' : Nat) (junk : Nat → D) : Session io F conv run m0 ops m → m.st.bundleIndices ≠ [] →
      io.pose.Ok m.pose → io.real.Ok m.resolution → (∀ c k x, m.st.content c k = some x → F.codec.Ok x) → dynHeader m = some h →
      (∀ c ∈ sched, canOpen c = true) → (Threads.run canOpen sched).Joined (2 ^ d) →
      loadDir io d F (rebuildDynamic f f' junk) canOpen sched (runEffs old t.effects) = .loaded m' → Session io F conv run m0 ops m'
  /-- the map is converted to a static map and back -/
  | convert (ops : List Op) (m : MapObj (octreeBackend d) K P D) (size : Fin d → Nat) (st1 : St (arrayBackend d) D) (st2 : St (octreeBackend d) D) (f : Nat → Nat) (f' : Nat) :
      Session io F conv run m0 ops m → m.st.bundleIndices ≠ [] → St.toStatic conv m.st = some (size, st1) → St.toDynamic f f' conv st1 = some st2 →
      Session io F conv run m0 ops { m with st := st2 }
  /-- the map is copied, and the copy is used from now on instead of the original -/
  | copy (ops : List Op) (m : MapObj (octreeBackend d) K P D) : Session io F conv run m0 ops m → Session io F conv run m0 ops { m with st := (copyDynamic m.st).viewC }
  /-- the map is moved to a new one -/
  | move (ops : List Op) (m : MapObj (octreeBackend d) K P D) (g : Nat → Nat) (g' : Nat) : Session io F conv run m0 ops m →
      Session io F conv run m0 ops { m with st := (moveMap (.dynamic g g') m.st).viewC }

end Ndt.Spec
