import Verif.Model.Serial

/-!
Model of the map loader nodes: `cslibs_ndt_2d/src/ndt_map_loader.h`, `cslibs_ndt_3d/src/ndt_map_loader.h` (`LD2`, `LD3` below). ROS itself (parameters, topics, the spinner) is external.
-/

namespace Ndt

/-- the template argument of `setup<T>` -/
inductive Scalar where
  | double
  | float
  deriving DecidableEq

/-- the two maps a node can load: `path_ndt` and `path_occ_ndt` -/
inductive Which where
  | ndt
  | occ
  deriving DecidableEq

/-- What a node works on. `configured w` is `path != ""`. `load T w` is the result of `loadBinary<T>` on that path (`LD2:83, 105`, `LD3:78, 92`). `primary T w m` is the message computed from the map (2D: the normalised
probability grid, `LD2:88-99, 111-122`; 3D: the cloud of means, `LD3:83-86, 98-101`), `none` if a conversion is undefined, and `markers T w m` the message with the distributions (`LD2:101, 124`, `LD3:88, 103`). -/
structure LoaderEnv (M G N : Type) where
  configured : Which → Bool
  load : Scalar → Which → LoadResult M
  primary : Scalar → Which → M → Option G
  markers : Scalar → Which → M → N

/-- The pointers to messages of a node (`LD2:51-55`, `LD3:49-53`). -/
structure LoaderState (G N : Type) where
  primary : Which → Option G
  markers : Which → Option N

/-- All pointers are null in the beginning. -/
def LoaderState.init {G N : Type} : LoaderState G N := ⟨fun _ => none, fun _ => none⟩

section
variable {M G N : Type}

/-- One of the two `if (path != "")` blocks of `setup<T>` (`LD2:81-102, 103-125`, `LD3:76-89, 90-104`); the result is false if the map could not be loaded. `none` is undefined behaviour. -/
def setupOne (E : LoaderEnv M G N) (T : Scalar) (w : Which) (s : LoaderState G N) : Option (LoaderState G N × Bool) :=
  if E.configured w then
    match E.load T w with
    | .fails => some (s, false)
    | .undefined => none
    | .loaded m =>
      match E.primary T w m with
      | none => none
      | some x => some (⟨Function.update s.primary w (some x), Function.update s.markers w (some (E.markers T w m))⟩, true)
  else some (s, true)

/-- `setup<T>` (`LD2:57-130`, `LD3:55-109`): the second map is not looked at if the first one cannot be loaded. -/
def setup (E : LoaderEnv M G N) (T : Scalar) (s : LoaderState G N) : Option (LoaderState G N × Bool) :=
  match setupOne E T .ndt s with
  | none => none
  | some (s1, false) => some (s1, false)
  | some (s1, true) => setupOne E T .occ s1

/-- What is left after `run` has reached `ros::spin`: the messages, whether the node has been shut down, and whether it has printed that the setup failed resp. that it was successful. -/
structure RunResult (G N : Type) where
  state : LoaderState G N
  shutdown : Bool
  printedFailure : Bool
  printedSuccess : Bool

/-- `run` (`LD2:31-41`, `LD3:29-39`) -/
def runLoader (E : LoaderEnv M G N) : Option (RunResult G N) :=
  match setup E .double .init with
  | none => none
  | some (s1, true) => some ⟨s1, false, false, true⟩
  | some (s1, false) =>
    match setup E .float s1 with
    | none => none
    | some (s2, true) => some ⟨s2, false, false, true⟩
    | some (s2, false) => some ⟨s2, true, true, true⟩

/-- A published message. -/
inductive Pub (G N : Type) where
  | primary (w : Which) (x : G) (stamp : Nat)
  | markers (w : Which) (x : N) (stamp : Nat)

/-- the messages `resend` publishes at time `t`, in the order of the code (`LD2:141-159`, `LD3:120-138`) -/
def publications (t : Nat) (s : LoaderState G N) : List (Pub G N) :=
  (s.primary .ndt).toList.map (.primary .ndt · t) ++ (s.primary .occ).toList.map (.primary .occ · t) ++
    (s.markers .ndt).toList.map (.markers .ndt · t) ++ (s.markers .occ).toList.map (.markers .occ · t)

/-- `resend` of the 2D node (`LD2:132-162`) -/
def resend2 (t : Nat) (s : LoaderState G N) : Bool × List (Pub G N) :=
  if (s.primary .ndt).isNone && (s.primary .occ).isNone then (false, []) else (true, publications t s)

/-- `resend` of the 3D node (`LD3:111-141`) -/
def resend3 (t : Nat) (s : LoaderState G N) : Bool × List (Pub G N) :=
  if (s.primary .ndt).isNone && (s.primary .occ).isNone && (s.markers .ndt).isNone && (s.markers .occ).isNone then (false, []) else (true, publications t s)

end
end Ndt
