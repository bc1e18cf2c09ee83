import Verif.Model.Map
import Verif.Model.Occupancy

/-!
Model of saving and loading maps: `CN/serialization/storage.hpp`, `loader.hpp`, `map.hpp`.

Byte formats of cslibs_math (`io<T>`, `array::binary`, `transform::binary`, `binary<StableDistribution,…>`) are arbitrary fixed-size codecs (assumption A8).
-/

namespace Ndt

abbrev Bytes := List UInt8

/-- A fixed-size binary format. `dec` is what a read of `size` bytes yields; nothing is assumed about it for other byte strings, in particular for the shorter strings read at
the end of a file. `Ok` are the values that the format represents exactly. -/
structure Codec (α : Type) where
  size : Nat
  enc : α → Bytes
  dec : Bytes → α
  Ok : α → Prop
  len : ∀ x, (enc x).length = size
  dec_enc : ∀ x, Ok x → dec (enc x) = x

/-- two formats one after the other -/
def Codec.pair {α β : Type} (A : Codec α) (B : Codec β) : Codec (α × β) where
  size := A.size + B.size
  enc := fun x => A.enc x.1 ++ B.enc x.2
  dec := fun bs => (A.dec (bs.take A.size), B.dec (bs.drop A.size))
  Ok := fun x => A.Ok x.1 ∧ B.Ok x.2
  len := fun x => by rw [List.length_append, A.len, B.len]
  dec_enc := fun x h => by
    have h1 : (A.enc x.1 ++ B.enc x.2).take A.size = A.enc x.1 := by rw [← A.len x.1]; exact List.take_left
    have h2 : (A.enc x.1 ++ B.enc x.2).drop A.size = B.enc x.2 := by rw [← A.len x.1]; exact List.drop_left
    rw [h1, h2, A.dec_enc _ h.1, B.dec_enc _ h.2]

/-- `array::binary<T, n>` of cslibs_math: `n` values one after the other -/
def Codec.array {α : Type} (A : Codec α) : (n : Nat) → Codec (Fin n → α)
  | 0 => { size := 0, enc := fun _ => [], dec := fun _ => Fin.elim0, Ok := fun _ => True, len := fun _ => rfl, dec_enc := fun x _ => funext fun a => a.elim0 }
  | n + 1 =>
    let C := A.pair (Codec.array A n)
    { size := C.size
      enc := fun x => C.enc (x 0, fun a => x a.succ)
      dec := fun bs => Fin.cons (C.dec bs).1 (C.dec bs).2
      Ok := fun x => C.Ok (x 0, fun a => x a.succ)
      len := fun x => C.len _
      dec_enc := fun x h => by
        rw [C.dec_enc _ h]
        exact Fin.cons_self_tail x }

/-- The formats a map file consists of: `int`, `std::size_t`, the resolution (`io<T>`) and the origin (`transform::binary`). -/
structure Io (K P : Type) where
  int : Codec Int
  int_ok : ∀ x, -2147483648 ≤ x → x ≤ 2147483647 → int.Ok x
  int_pos : 0 < int.size
  nat : Codec Nat
  nat_ok : ∀ x, x < 2 ^ 64 → nat.Ok x
  real : Codec K
  pose : Codec P

/-- Format of a distribution: what `write` writes and `read` reads, and the number of bytes `read` reports. -/
structure Fmt (D : Type) where
  codec : Codec D
  reported : Nat

/-- `write/read(Distribution)` (`storage.hpp:25-46`) -/
def distFmt {D : Type} (C : Codec D) : Fmt D := ⟨C, C.size⟩

/-- bytes of a counter and of a distribution, an empty distribution being written for a null pointer; on reading, the distribution is dropped if it has no samples (`storage.hpp:47-90`) -/
def occCodec {W E : Type} (N : Codec W) (C : Codec (Multiset E)) : Codec (Occ W E) where
  size := N.size + C.size
  enc := fun o => N.enc o.free ++ C.enc (o.data.getD 0)
  dec := fun bs =>
    let x := (N.pair C).dec bs
    ⟨x.1, if x.2.card ≠ 0 then some x.2 else none⟩
  Ok := fun o => N.Ok o.free ∧ C.Ok (o.data.getD 0) ∧ o.data ≠ some 0
  len := fun o => (N.pair C).len (o.free, o.data.getD 0)
  dec_enc := fun o h => by
    have e := (N.pair C).dec_enc (o.free, o.data.getD 0) ⟨h.1, h.2.1⟩
    have e' : (N.pair C).dec (N.enc o.free ++ C.enc (o.data.getD 0)) = (o.free, o.data.getD 0) := e
    rw [e']
    obtain ⟨f, dt⟩ := o
    cases dt with
    | none => simp
    | some s =>
      have : s ≠ 0 := fun hs => h.2.2 (congrArg some hs)
      simp [this]

/-- `write/read(OccupancyDistribution)` (`storage.hpp:47-69`): `read` returns `sizeof(std::size_t) + r` -/
def occFmt {E : Type} (N : Codec Nat) (C : Codec (Multiset E)) : Fmt (Occ Nat E) := ⟨occCodec N C, N.size + C.size⟩

/-- `write/read(WeightedOccupancyDistribution)` (`storage.hpp:70-90`): a weight of type `T` and the distribution are read, but `read` returns
`sizeof(std::size_t) + sizeof(T) + r` -/
def weightedFmt {W E : Type} (sizeofSizeT : Nat) (N : Codec W) (C : Codec (Multiset E)) : Fmt (Occ W E) := ⟨occCodec N C, sizeofSizeT + N.size + C.size⟩

section
variable {d : Nat} {B : Backend d} {D K P : Type}

/-- one record of a storage file -/
def recCodec (io : Io K P) (d : Nat) (F : Fmt D) : Codec (Idx d × D) := (io.int.array d).pair F.codec

/-- `binary::save` (`storage.hpp:101-117`): the records of the storage, one after the other -/
def storageBytes (io : Io K P) (F : Fmt D) (heap : Nat → D) (s : B.Store Nat) : Bytes :=
  (B.traverse s).flatMap fun e => (recCodec io d F).enc (e.1, heap e.2)

/-- `while (read < size) { …read a record… }` (`storage.hpp:151-157`, `loader.hpp:246-250`): `remaining` is `size - read`, the record has `actual` bytes and `reported` bytes are added to
`read`. The first argument bounds the number of iterations (at most `remaining`, as `reported > 0`). -/
def readLoop {α : Type} (actual reported : Nat) (dec : Bytes → α) : Nat → Nat → Bytes → List α
  | 0, _, _ => []
  | f + 1, remaining, bs =>
    if remaining = 0 then [] else dec (bs.take actual) :: readLoop actual reported dec f (remaining - reported) (bs.drop actual)

/-- the records read by `loadStorage` (`storage.hpp:138-164`) -/
def readRecords (io : Io K P) (d : Nat) (F : Fmt D) (bs : Bytes) : List (Idx d × D) :=
  readLoop (recCodec io d F).size ((io.int.array d).size + F.reported) (recCodec io d F).dec bs.length bs.length bs

/-- `storage->insert(index, data)` for all records, every object at a new address. Out of contract: an index the storage does not cover, or (not modelled) an index that is already
present. -/
def insertRecords : List (Idx d × D) → (Nat → D) × Nat × B.Store Nat → Option ((Nat → D) × Nat × B.Store Nat)
  | [], x => some x
  | (i, v) :: l, (h, n, s) =>
    if B.ok s i && (B.get s i).isNone then insertRecords l (Function.update h n v, n + 1, B.insert s i n) else none

/-- loading the storages `c`, `c+1`, …, `c+m-1` from their records (`map.hpp:112-121`). Simplification: addresses are given out storage by storage; only their identity
matters. -/
def insertStorages (fresh : Nat → B.Store Nat) (recs : Nat → List (Idx d × D)) : Nat → Nat → (Nat → D) × Nat × (Nat → B.Store Nat) → Option ((Nat → D) × Nat × (Nat → B.Store Nat))
  | _, 0, x => some x
  | c, m + 1, (h, n, S) =>
    match insertRecords (recs c) (h, n, fresh c) with
    | none => none
    | some (h', n', s) => insertStorages fresh recs (c + 1) m (h', n', Function.update S c s)

/-- collecting the pointers of a bundle: `b[i] = storages[i]->get(indices[i])` (`loader.hpp:69-71, 135-137`); a null pointer if there is no such object -/
def bundleFrom (S : Nat → B.Store Nat) : List (Nat × Idx d) → Bundle → Option Bundle
  | [], b => some b
  | (c, k) :: l, b =>
    if B.ok (S c) k then bundleFrom S l { b with data := Function.update b.data c (B.get (S c) k) } else none

/-- `allocateBundles` (`loader.hpp:61-77, 129-142`) -/
def insertBundles (S : Nat → B.Store Nat) : List (Idx d) → B.Store Bundle → Option (B.Store Bundle)
  | [], bs => some bs
  | bi :: l, bs =>
    match bundleFrom S (applyIndices bi 0 (twoPow d)) Bundle.new with
    | none => none
    | some b => if B.ok bs bi && (B.get bs bi).isNone then insertBundles S l (B.insert bs bi b) else none

/-- `allocateBundles` and `createMap` after all storages have been read: the map with the given bounds -/
def rebuild (freshS : Nat → B.Store Nat) (freshB : B.Store Bundle) (recs : Nat → List (Idx d × D)) (indices : List (Idx d)) (minB maxB : Idx d) (junk : Nat → D) :
    Option (St B D) :=
  match insertStorages freshS recs 0 (twoPow d) (junk, 0, freshS) with
  | none => none
  | some (h, n, S) =>
    match insertBundles S indices freshB with
    | none => none
    | some bs => some { heap := h, next := n, storage := S, bundles := bs, minB := minB, maxB := maxB }

/-- what a map file set says: origin, resolution, size, minimum index, bundle indices -/
structure Header (K P : Type) (d : Nat) where
  pose : P
  resolution : K
  size : Fin d → Nat
  minB : Idx d
  indices : List (Idx d)

/-- the fixed-size part of the header file -/
def headCodec (io : Io K P) (d : Nat) : Codec (P × K × (Fin d → Nat) × Idx d) :=
  io.pose.pair (io.real.pair ((io.nat.array d).pair (io.int.array d)))

/-- `header::save` (`loader.hpp:204-224, 295-315`) -/
def headerBytes (io : Io K P) (h : Header K P d) : Bytes :=
  (headCodec io d).enc (h.pose, h.resolution, h.size, h.minB) ++ h.indices.flatMap (io.int.array d).enc

/-- `header::load` (`loader.hpp:226-260, 317-349`) -/
def readHeader (io : Io K P) (d : Nat) (bs : Bytes) : Header K P d :=
  let x := (headCodec io d).dec (bs.take (headCodec io d).size)
  let n := (headCodec io d).size
  { pose := x.1, resolution := x.2.1, size := x.2.2.1, minB := x.2.2.2
    indices := readLoop (io.int.array d).size (io.int.array d).size (io.int.array d).dec bs.length (bs.length - n) (bs.drop n) }

/-- A map object for the purpose of saving: origin, resolution and state. -/
structure MapObj (B : Backend d) (K P D : Type) where
  pose : P
  resolution : K
  st : St B D

/-- `int` subtraction; signed overflow is undefined behaviour -/
def intSub (x y : Int) : Option Int := if -2147483648 ≤ x - y ∧ x - y ≤ 2147483647 then some (x - y) else none

/-- the header of a dynamic map (`loader.hpp:303-306`): the size is `max - min` (`CN/map/generic_map.hpp:278-284`), converted to an unsigned 64-bit number; `none` is the undefined
behaviour of a signed overflow -/
def dynHeader (m : MapObj (octreeBackend d) K P D) : Option (Header K P d) :=
  if ∀ a, (intSub (m.st.maxB a) (m.st.minB a)).isSome = true then
    some { pose := m.pose, resolution := m.resolution, size := fun a => ((m.st.maxB a - m.st.minB a) % 2 ^ 64).toNat, minB := m.st.minB, indices := m.st.bundleIndices }
  else none

/-- the header of a static map (`loader.hpp:212-215`) with the `size` it was constructed with -/
def staticHeader (size : Fin d → Nat) (m : MapObj (arrayBackend d) K P D) : Header K P d :=
  { pose := m.pose, resolution := m.resolution, size := size, minB := m.st.minB, indices := m.st.bundleIndices }

/-- loading a dynamic map (`loader.hpp:124-154, 350-353`, `generic_map.hpp:225-233`) from its header and records; `g`, `g'` are the uninitialised counters of the new octrees.
Simplification: the conversion of the size to `int` and the addition (`loader.hpp:350-352`) are not wrapped, which matters only for sizes that `save` never writes. -/
def rebuildDynamic (g : Nat → Nat) (g' : Nat) (junk : Nat → D) (h : Header K P d) (recs : Nat → List (Idx d × D)) : Option (MapObj (octreeBackend d) K P D) :=
  (rebuild (fun c => Octree.Tree.empty (g c)) (Octree.Tree.empty g') recs h.indices h.minB (fun a => h.minB a + (h.size a : Int)) junk).map fun st =>
    { pose := h.pose, resolution := h.resolution, st := st }

/-- loading a static map (`loader.hpp:52-89`, `generic_map.hpp:76-89`): the storages get `size + (i > 1)` cells and the offset `div(min_index, 2)` -/
def rebuildStatic (junk : Nat → D) (h : Header K P d) (recs : Nat → List (Idx d × D)) : Option (MapObj (arrayBackend d) K P D) :=
  (rebuild (B := arrayBackend d) (fun c => Arr.fresh (fun a => h.size a + (if 1 < c then 1 else 0)) (fun a => h.minB a / 2)) (Arr.fresh (fun a => h.size a * 2) h.minB) recs h.indices h.minB
    (fun a => h.minB a + (h.size a * 2 : Nat) - 1) junk).map fun st => { pose := h.pose, resolution := h.resolution, st := st }

end

/-! ### Threads -/

/-- Where a worker thread is in `success = success && f()`: before reading the flag, before calling `f`, before writing the flag, finished. -/
inductive Phase where
  | start
  | checked
  | result (v : Bool)
  | done
  deriving DecidableEq

/-- shared flag `success`, the threads, and which `f()` have been called -/
structure Threads where
  flag : Bool
  phase : Nat → Phase
  ran : Nat → Bool

/-- One step of thread `c` (`map.hpp:64-66, 115-117`): the flag is an `std::atomic_bool`, so that reading and writing it are atomic, but the statement as a whole is not; `ok c` is the
result of `f()` in thread `c`. -/
def Threads.step (ok : Nat → Bool) (s : Threads) (c : Nat) : Threads :=
  match s.phase c with
  | .start => { s with phase := Function.update s.phase c (if s.flag then .checked else .result false) }
  | .checked => { s with phase := Function.update s.phase c (.result (ok c)), ran := Function.update s.ran c true }
  | .result v => { s with phase := Function.update s.phase c .done, flag := v }
  | .done => s

def Threads.init : Threads := { flag := true, phase := fun _ => .start, ran := fun _ => false }

/-- the state after a schedule, i.e. a list of the threads that take the steps -/
def Threads.run (ok : Nat → Bool) (sched : List Nat) : Threads := sched.foldl (Threads.step ok) Threads.init

/-- all of the threads `0 … n-1` have been joined -/
def Threads.Joined (n : Nat) (s : Threads) : Prop := ∀ c, c < n → s.phase c = .done

/-! ### Directories -/

/-- the files of a map directory -/
inductive FileName where
  | header
  | store (c : Nat)
  /-- any other file -/
  | other (name : String)
  deriving DecidableEq

/-- contents of a map directory -/
abbrev Dir := FileName → Option Bytes

/-- Result of `load`: it fails (returns `false`), leaves the contract of a storage or dereferences a null pointer, or yields a map. -/
inductive LoadResult (M : Type) where
  | fails
  | undefined
  | loaded (m : M)

/-- The second half of `load` (`map.hpp:112-133`), after the header has been read: `rebuildMap` makes a map from the records of the storages. `canOpen c` says whether the file of storage `c` can be opened. A storage whose thread did not call `f()` stays a
null pointer, one whose file could not be opened stays empty. -/
def loadStores {K P D M : Type} (io : Io K P) (d : Nat) (F : Fmt D) (rebuildMap : (Nat → List (Idx d × D)) → Option M) (canOpen : Nat → Bool) (sched : List Nat) (files : Dir) : LoadResult M :=
  let s := Threads.run canOpen sched
  if s.flag then
    if (List.range (twoPow d)).all s.ran then
      match rebuildMap (fun c => if canOpen c then readRecords io d F ((files (.store c)).getD []) else []) with
      | none => .undefined
      | some m => .loaded m
    else .undefined
  else .fails

/-- `load` (`map.hpp:74-134`) for a directory (`none`: does not exist) with a binary header, which can be opened. `rebuildMap` is `rebuildDynamic` or `rebuildStatic`. Simplification: only binary headers; directories with a file `map.yaml` are in
`Model/Legacy.lean`. -/
def loadDir {K P D M : Type} (io : Io K P) (d : Nat) (F : Fmt D) (rebuildMap : Header K P d → (Nat → List (Idx d × D)) → Option M) (canOpen : Nat → Bool) (sched : List Nat)
    (dir : Option Dir) : LoadResult M :=
  match dir with
  | none => .fails
  | some files =>
    if (List.range (twoPow d)).all fun c => (files (.store c)).isSome then
      match files .header with
      | none => .fails
      | some hb => loadStores io d F (rebuildMap (readHeader io d hb)) canOpen sched files
    else .fails

/-! ### Saving -/

/-- One change of the file system. `append` is a flush of a file buffer. -/
inductive Eff where
  | rm (f : FileName)
  | rmdir
  | mkdir
  | create (f : FileName)
  | append (f : FileName) (bs : Bytes)

def Eff.apply : Option Dir → Eff → Option Dir
  | some dir, .rm f => some (Function.update dir f none)
  | _, .rmdir => none
  | none, .mkdir => some fun _ => none
  | some dir, .mkdir => some dir
  | some dir, .create f => some (Function.update dir f (some []))
  | some dir, .append f bs => some (Function.update dir f ((dir f).map (· ++ bs)))
  | none, _ => none

/-- the directory after a sequence of changes -/
def runEffs (dir : Option Dir) (l : List Eff) : Option Dir := l.foldl Eff.apply dir

/-- An execution of `save` (`map.hpp:39-72`) without errors over a path with contents `old`, for a map with header bytes `hb` and storage bytes `sb c`: the old directory is removed file by
file (`filesystem.hpp:47-60`), a new one is created, the header file is written, and then one thread per storage creates and writes its file. The order of removal, the sizes of the
flushed blocks and the interleaving of the threads are arbitrary. -/
structure SaveTrace (d : Nat) (old : Option Dir) (hb : Bytes) (sb : Nat → Bytes) where
  removed : List FileName
  removed_all : ∀ dir f, old = some dir → (dir f).isSome = true → f ∈ removed
  headerBlocks : List Bytes
  header_eq : headerBlocks.flatten = hb
  storeBlocks : Nat → List Bytes
  store_eq : ∀ c, c < 2 ^ d → (storeBlocks c).flatten = sb c
  /-- the changes made by the threads, with the thread that makes them -/
  threads : List (Nat × Eff)
  threads_lt : ∀ e ∈ threads, e.1 < 2 ^ d
  thread_eq : ∀ c, c < 2 ^ d → (threads.filter fun e => decide (e.1 = c)).map Prod.snd = .create (.store c) :: (storeBlocks c).map (.append (.store c))

namespace SaveTrace
variable {d : Nat} {old : Option Dir} {hb : Bytes} {sb : Nat → Bytes}

/-- removal of the old directory -/
def removal (t : SaveTrace d old hb sb) : List Eff := if old.isSome then t.removed.map .rm ++ [.rmdir] else []

/-- creation of the directory and of the header file -/
def headerPart (t : SaveTrace d old hb sb) : List Eff := .mkdir :: .create .header :: t.headerBlocks.map (.append .header)

/-- everything `save` does -/
def effects (t : SaveTrace d old hb sb) : List Eff := t.removal ++ t.headerPart ++ t.threads.map Prod.snd

end SaveTrace

/-- The value returned by `save` (`map.hpp:39-72`): `dirOk` and `headerOk` say whether the directory could be created and the header file opened, `canOpen c` whether the file of storage
`c` could be opened. The outcome of the writes is not looked at (`storage.hpp:110-117`, `loader.hpp:206-223`). -/
def saveResult (dirOk headerOk : Bool) (canOpen : Nat → Bool) (sched : List Nat) : Bool :=
  dirOk && headerOk && (Threads.run canOpen sched).flag

end Ndt
