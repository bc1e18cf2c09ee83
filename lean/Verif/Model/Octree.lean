import Verif.Model.Index
import Mathlib.Logic.Function.Basic

/-!
Model of the octree storage backend, `CN/backend/octree.hpp`.

Pointers to nodes become values of a tree type indexed by the remaining height (16 at the root, 0 at the leaves). The
union of `children_` / `data_ptr_` in `Node` (lines 42-167) is resolved by the height: nodes of height 0 hold
`Data`, all others hold children. `children_ == nullptr` is the node without children. Copying a tree object copies the
root *pointer*; that aliasing is modelled separately in `Verif.Model.Copy`.
-/

namespace Ndt.Octree

/-- `struct Data { index_t index; data_storage_t data; }` (`CN/backend/octree.hpp:36-40`). -/
structure Leaf (d : Nat) (V : Type) where
  index : Idx d
  data : V

/-- `union Node` (`CN/backend/octree.hpp:42-167`), by remaining height. A child that does not exist is `none`. -/
def Node (d : Nat) (V : Type) : Nat → Type
  | 0 => Leaf d V
  | h + 1 => Nat → Option (Node d V h)

/-- `tree_depth_` (`CN/backend/octree.hpp:385`). -/
def treeDepth : Nat := 16

/-- `tree_max_val_` (`CN/backend/octree.hpp:386`). -/
def treeMaxVal : Int := 32768

/-- `key & (1 << depth)` on the key of one coordinate (`CN/backend/octree.hpp:374-375`).
Simplification: the sum `index + tree_max_val_` is exact (in C++ it overflows, which is undefined, above `INT_MAX - 32768`). -/
def keyBit (x : Int) (depth : Nat) : Bool := ((x + treeMaxVal) / 2 ^ depth) % 2 == 1

/-- `computeChildIdx` (`CN/backend/octree.hpp:370-380`). -/
def computeChildIdx {d : Nat} (index : Idx d) (depth : Nat) : Nat :=
  (List.finRange d).foldl (fun pos i => if keyBit (index i) depth then pos + 1 <<< i.1 else pos) 0

variable {d : Nat} {V : Type}

/-- The children of a possibly missing node: a new node has none (`CN/backend/octree.hpp:61-73, 89-94, 165-166`). -/
def childrenOf {h : Nat} : Option (Node d V (h + 1)) → Nat → Option (Node d V h)
  | none => fun _ => none
  | some c => c

/-- `insert(node, node_just_created, index, depth, args...)` and `Node::insert`
(`CN/backend/octree.hpp:233-253, 96-114`). `none` stands for "the node has just been created". Returns the new node and the number of nodes created
(the increments of `tree_size_`). `merge old new` is the merge strategy of the data interface. -/
def insertNode (merge : V → V → V) (index : Idx d) (v : V) : (h : Nat) → Option (Node d V h) → Node d V h × Nat
  | 0, none => (({ index := index, data := v } : Leaf d V), 1)
  | 0, some (l : Leaf d V) => (({ l with data := merge l.data v } : Leaf d V), 0)
  | h + 1, o =>
    let pos := computeChildIdx index h
    let r := insertNode merge index v h (childrenOf o pos)
    (Function.update (childrenOf o) pos (some r.1), r.2 + (if o.isNone then 1 else 0))

/-- `get(node, index, depth)` (`CN/backend/octree.hpp:255-287`). -/
def getNode (index : Idx d) : (h : Nat) → Node d V h → Option V
  | 0, (l : Leaf d V) => some l.data
  | h + 1, n =>
    match (n : Nat → Option (Node d V h)) (computeChildIdx index h) with
    | none => none
    | some c => getNode index h c

/-- `traverse(node, function, depth)` (`CN/backend/octree.hpp:289-323`): the trace of calls `function(index, data)`. -/
def traverseNode : (h : Nat) → Node d V h → List (Idx d × V)
  | 0, (l : Leaf d V) => [(l.index, l.data)]
  | h + 1, n =>
    (List.range (2 ^ d)).flatMap fun i =>
      match (n : Nat → Option (Node d V h)) i with
      | none => []
      | some c => traverseNode h c

/-- `Node::hasChildren` (`CN/backend/octree.hpp:49-59`). -/
def hasChildren {h : Nat} (n : Node d V (h + 1)) : Bool :=
  (List.range (2 ^ d)).any fun i => ((n : Nat → Option (Node d V h)) i).isSome

/-- Sizes of the C++ types used by `byte_size`. -/
structure Sizes (V : Type) where
  this : Nat
  node : Nat
  ptr : Nat
  index : Nat
  data : V → Nat

/-- `byte_size(node, depth, bytes)` and `Node::byte_size` (`CN/backend/octree.hpp:347-368, 156-162`). -/
def byteSizeNode (sz : Sizes V) : (h : Nat) → Node d V h → (bytes : Nat) → Nat
  | 0, (l : Leaf d V), bytes => (bytes + sz.node) + (sz.index + sz.data l.data)
  | h + 1, n, bytes =>
    let bytes := bytes + sz.node
    if hasChildren n then
      (List.range (2 ^ d)).foldl (fun acc i =>
        match (n : Nat → Option (Node d V h)) i with
        | none => acc
        | some c => acc + byteSizeNode sz h c 0) (bytes + 2 ^ d * sz.ptr)
    else bytes

/-- The octree object (`CN/backend/octree.hpp:382-386`): root pointer and `tree_size_`. -/
structure Tree (d : Nat) (V : Type) where
  root : Option (Node d V treeDepth)
  size : Nat

/-- A default-constructed octree: `root_ = nullptr`, `tree_size_` has no initialiser (`CN/backend/octree.hpp:383-384`), so its value is an
arbitrary `garbage`. -/
def Tree.empty (garbage : Nat) : Tree d V := { root := none, size := garbage }

/-- public `insert` (`CN/backend/octree.hpp:170-181`). -/
def Tree.insert (merge : V → V → V) (t : Tree d V) (index : Idx d) (v : V) : Tree d V :=
  let r := insertNode merge index v treeDepth t.root
  { root := some r.1, size := t.size + r.2 }

/-- public `get` (`CN/backend/octree.hpp:183-197`). -/
def Tree.get (t : Tree d V) (index : Idx d) : Option V :=
  match t.root with
  | none => none
  | some n => getNode index treeDepth n

/-- public `traverse` (`CN/backend/octree.hpp:199-211`). -/
def Tree.traverse (t : Tree d V) : List (Idx d × V) :=
  match t.root with
  | none => []
  | some n => traverseNode treeDepth n

/-- public `byte_size` (`CN/backend/octree.hpp:222-225`). -/
def Tree.byteSize (sz : Sizes V) (t : Tree d V) : Nat :=
  match t.root with
  | none => sz.this
  | some n => sz.this + byteSizeNode sz treeDepth n 0

/-- Writing through the pointer returned by `get` (`data_output_t*`, `CN/backend/octree.hpp:116-119, 183-189`): the data of an existing
leaf is replaced by `f`. Used by the map to update distributions in place. -/
def modifyNode (f : V → V) (index : Idx d) : (h : Nat) → Node d V h → Node d V h
  | 0, (l : Leaf d V) => ({ l with data := f l.data } : Leaf d V)
  | h + 1, n =>
    let pos := computeChildIdx index h
    match childrenOf (some n) pos with
    | none => n
    | some c => Function.update (childrenOf (some n)) pos (some (modifyNode f index h c))

def Tree.modify (f : V → V) (t : Tree d V) (index : Idx d) : Tree d V :=
  { t with root := t.root.map (modifyNode f index treeDepth) }

/-- A history of inserts applied to a fresh octree. -/
def run (merge : V → V → V) (garbage : Nat) (hist : List (Idx d × V)) : Tree d V :=
  hist.foldl (fun t e => t.insert merge e.1 e.2) (Tree.empty garbage)

end Ndt.Octree
