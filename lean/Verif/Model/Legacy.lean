import Verif.Model.Serial

/-!
Model of `load` and `save` of `CN/serialization/map.hpp` on paths, with both kinds of headers: binary (`map.bin`) and YAML (`map.yaml`), and of the YAML part of `CN/serialization/loader.hpp`. The YAML library is external: a pair of functions
between headers and the contents of a file. Symbolic links are not modelled.
-/

namespace Ndt

/-- A `boost::filesystem::path`: absolute or relative, with its components (`/a/b`, `./x`). -/
structure FPath where
  absolute : Bool
  comps : List String
  deriving DecidableEq

/-- the two definitions of `operator/` of Boost.Filesystem -/
inductive PathVersion where
  | v3
  | v4
  deriving DecidableEq

/-- `p / q` of Boost.Filesystem (external): version 3 always appends the components, version 4 yields `q` if it is absolute. -/
def FPath.join (v : PathVersion) (p q : FPath) : FPath :=
  if p.comps = [] ∧ p.absolute = false then q
  else if v = .v4 ∧ q.absolute = true then q
  else ⟨p.absolute, p.comps ++ q.comps⟩

/-- `path_t("…")` for the name of a file -/
def FPath.file (s : String) : FPath := ⟨false, [s]⟩

/-- one component of a path, from the directory `dir` (the components from the root directory on) -/
def descend (dir : List String) (c : String) : List String :=
  if c = "" ∨ c = "." then dir else if c = ".." then dir.dropLast else dir ++ [c]

/-- The place in the file system a path denotes, in the working directory `cwd`. -/
def FPath.locate (cwd : List String) (p : FPath) : List String := p.comps.foldl descend (if p.absolute then [] else cwd)

/-- a file system: directories and contents of regular files -/
structure FileSystem where
  isDir : List String → Bool
  file : List String → Option Bytes

/-- the names of the files of a map (`map.hpp:56, 61, 85, 96, 103`) -/
def FileName.toString : FileName → String
  | .header => "map.bin"
  | .store c => "store_" ++ Nat.repr c ++ ".bin"
  | .other s => s

/-- the name of a YAML header (`map.hpp:96`) -/
def yamlName : String := "map.yaml"

/-- the files in the directory at `root`, found under the paths `path_root / name` -/
def FileSystem.dirAt (v : PathVersion) (fs : FileSystem) (cwd : List String) (root : FPath) : Dir := fun f => fs.file ((root.join v (.file f.toString)).locate cwd)

/-- what the YAML header of a dynamic map says (`loader.hpp:277-283`) -/
structure YamlHeader (K P : Type) (d : Nat) where
  pose : P
  resolution : K
  minB : Idx d
  maxB : Idx d
  indices : List (Idx d)

section
variable {d : Nat} {K P D : Type} [Inhabited D]

/-- `header<dynamic_map>::write` (`loader.hpp:274-284`): it is computed without subtraction, in contrast to the size in a binary header. -/
def writeYaml (m : MapObj (octreeBackend d) K P D) : YamlHeader K P d :=
  { pose := m.pose, resolution := m.resolution, minB := m.st.minB, maxB := m.st.maxB, indices := m.st.bundleIndices }

/-- `header<dynamic_map>::load` from YAML and the loader (`loader.hpp:286-294, 124-154`) -/
def rebuildYaml (g : Nat → Nat) (g' : Nat) (junk : Nat → D) (h : YamlHeader K P d) (recs : Nat → List (Idx d × D)) : Option (MapObj (octreeBackend d) K P D) :=
  (rebuild (fun c => Octree.Tree.empty (g c)) (Octree.Tree.empty g') recs h.indices h.minB h.maxB junk).map fun st => { pose := h.pose, resolution := h.resolution, st := st }

end

/-- Outcome of `load` for a path: `YAML::LoadFile` and `as<>` throw exceptions, which `load` does not catch. -/
inductive PathResult (M : Type) where
  | throws
  | returns (r : LoadResult M)

/-- `load` (`map.hpp:74-134`) for a path. `rebuildBin` and `rebuildYml` are the loaders for the two kinds of headers (`loader.hpp:192-202, 226-260` resp. `286-294, 317-353`), `parse` is `YAML::LoadFile` followed by the conversions, `none` if
one of them throws. The empty path does not exist. The file `map.yaml` is opened under the path `path_root / (path_root / "map.yaml")` (`map.hpp:96, 100`). -/
def loadPath {K P D M H : Type} (v : PathVersion) (io : Io K P) (d : Nat) (F : Fmt D) (rebuildBin : Header K P d → (Nat → List (Idx d × D)) → Option M)
    (parse : Bytes → Option H) (rebuildYml : H → (Nat → List (Idx d × D)) → Option M) (canOpen : Nat → Bool) (sched : List Nat) (fs : FileSystem) (cwd : List String) (root : FPath) :
    PathResult M :=
  if root ≠ ⟨false, []⟩ ∧ fs.isDir (root.locate cwd) = true then
    let files := fs.dirAt v cwd root
    if (List.range (twoPow d)).all fun c => (files (.store c)).isSome then
      let pathFile := root.join v (.file yamlName)
      if (fs.file (pathFile.locate cwd)).isSome then
        match fs.file ((root.join v pathFile).locate cwd) with
        | none => .throws
        | some bs =>
          match parse bs with
          | none => .throws
          | some h => .returns (loadStores io d F (rebuildYml h) canOpen sched files)
      else .returns (loadDir io d F rebuildBin canOpen sched (some files))
    else .returns .fails
  else .returns .fails

end Ndt
