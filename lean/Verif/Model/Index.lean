import Mathlib.Algebra.Order.Floor.Ring
import Mathlib.Algebra.Order.Field.Basic

/-!
Model of the index arithmetic: `CN/utility/binary_indices.hpp`, `CN/utility/integer_sequence.hpp`,
`CN/utility/merge.hpp`, `CN/utility/for_each.hpp` and `AbstractMap::toBundleIndex`.
-/

namespace Ndt

/-- `index_t = std::array<int,Dim>` (`CN/map/abstract_map.hpp:41`). Simplification: `int` is `Int`;
C04 (`getIndexInner32`) covers the 32-bit arithmetic. -/
abbrev Idx (d : Nat) := Fin d → Int

/-- `point_t`: a vector of `Dim` coordinates. Simplification: exact numbers of a floor field instead of floats. -/
abbrev Pt (K : Type) (d : Nat) := Fin d → K

/-- `two_pow` (`CN/utility/binary_indices.hpp:14-17`). -/
def twoPow : Nat → Nat
  | 0 => 1
  | n + 1 => (twoPow n) <<< 1

/-- `get_index_inner` (`CN/utility/binary_indices.hpp:19-24`). `>> 1` on `int` is the arithmetic shift;
`bi_dim & 1` is the lowest two's-complement bit, i.e. the remainder modulo 2. -/
def getIndexInner (b : Int) (counter dim : Nat) : Int :=
  if (counter / twoPow dim) &&& 1 ≠ 0 then (b >>> 1) + (b % 2) else b >>> 1

/-- The same function on 32-bit machine integers, operator by operator (`CN/utility/binary_indices.hpp:19-24`). -/
def getIndexInner32 (b : BitVec 32) (counter dim : Nat) : BitVec 32 :=
  if (counter / twoPow dim) &&& 1 ≠ 0 then b.sshiftRight 1 + (b &&& 1#32) else b.sshiftRight 1

/-- `generate_index` (`CN/utility/binary_indices.hpp:32-43`). -/
def generateIndex {d : Nat} (bi : Idx d) (counter : Nat) : Idx d :=
  fun i => getIndexInner (bi i) counter i.1

/-- `apply_indices<From,To>` (`CN/utility/binary_indices.hpp:60-89`): compile-time recursion; here the trace of calls
`(counter, index)` made to the functor. `n` is `To - From`. -/
def applyIndices {d : Nat} (bi : Idx d) : (fromC n : Nat) → List (Nat × Idx d)
  | _, 0 => []
  | fromC, n + 1 => (fromC, generateIndex bi fromC) :: applyIndices bi (fromC + 1) n

/-- `for_each<From,To>` (`CN/utility/for_each.hpp:9-27`): trace of the calls. `n` is `To - From`. -/
def forEach : (fromC n : Nat) → List Nat
  | _, 0 => []
  | fromC, n + 1 => fromC :: forEach (fromC + 1) n

/-- `merge_and_renumber` (`CN/utility/integer_sequence.hpp:15-21`). -/
def mergeAndRenumber (s1 s2 : List Nat) : List Nat :=
  s1 ++ s2.map (fun i => s1.length + i)

/-- `integer_sequence_maker` (`CN/utility/integer_sequence.hpp:23-33`). -/
def integerSequenceMaker : Nat → List Nat
  | 0 => []
  | 1 => [0]
  | n + 2 => mergeAndRenumber (integerSequenceMaker ((n + 2) >>> 1))
                              (integerSequenceMaker ((n + 2) - ((n + 2) >>> 1)))
termination_by n => n
decreasing_by
  all_goals (simp only [Nat.shiftRight_one]; omega)

/-- `generate_indices` (`CN/utility/binary_indices.hpp:45-58`): the list of all `bin_count = two_pow(Dim)` indices. -/
def generateIndices {d : Nat} (bi : Idx d) : List (Idx d) :=
  (integerSequenceMaker (twoPow d)).map (generateIndex bi)

/-- `merge<Fn>` (`CN/utility/merge.hpp:7-17`): right fold over the variadic arguments. -/
def mergeFold {α : Type} (apply : α → α → α) (dflt : α) : List α → α
  | [] => dflt
  | v :: vs => apply v (mergeFold apply dflt vs)

/-- `operations::bool_and` (`CN/utility/merge.hpp:20-28`). -/
def mergeAnd : List Bool → Bool := mergeFold (fun a b => a && b) true

/-- `operations::bool_or` (`CN/utility/merge.hpp:30-38`). -/
def mergeOr : List Bool → Bool := mergeFold (fun a b => a || b) false

section
variable {K : Type} [Field K] [LinearOrder K] [FloorRing K]

/-- `bundle_resolution_` (`CN/map/abstract_map.hpp:66`). -/
def bundleResolution (r : K) : K := (1 / 2) * r

/-- `bundle_resolution_inv_` (`CN/map/abstract_map.hpp:67`). -/
def bundleResolutionInv (r : K) : K := 1 / bundleResolution r

/-- `toBundleIndex` after the transformation into map coordinates (`CN/map/abstract_map.hpp:323-330`). -/
def toBundleIndex {d : Nat} (r : K) (pm : Pt K d) : Idx d :=
  fun i => ⌊pm i * bundleResolutionInv r⌋

end
end Ndt
