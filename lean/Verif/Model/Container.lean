import Verif.Model.Index
import Mathlib.Analysis.Real.Sqrt
import Mathlib.Algebra.BigOperators.Fin

/-!
Model of the container of bundle indices (`CN/map/impl/utility.hpp`): nested sorted maps with one level per dimension.

`std::map<int, V>` is external code: a list of entries in increasing order of the keys.
-/

namespace Ndt.Container

/-- `std::map<int, V>`: the entries in the order of iteration -/
abbrev SMap (V : Type) := List (Int × V)

namespace SMap
variable {V : Type}

/-- `std::map::insert({k, v})`: keeps an existing entry -/
def insert (k : Int) (v : V) : SMap V → SMap V
  | [] => [(k, v)]
  | (k', v') :: m => if k < k' then (k, v) :: (k', v') :: m else if k = k' then (k', v') :: m else (k', v') :: insert k v m

/-- change of the value of the entry with key `k` through the iterator returned by `insert` -/
def modify (k : Int) (f : V → V) : SMap V → SMap V
  | [] => []
  | (k', v') :: m => if k = k' then (k', f v') :: m else (k', v') :: modify k f m

/-- `std::map::find(k)` -/
def find (k : Int) : SMap V → Option V
  | [] => none
  | (k', v') :: m => if k = k' then some v' else find k m

/-- the entries from `lower_bound(a)` up to `upper_bound(b)` -/
def range (a b : Int) (m : SMap V) : SMap V := (m.dropWhile fun e => decide (e.1 < a)).takeWhile fun e => decide (e.1 ≤ b)

end SMap

/-- `Map<d + 1>`: the member `values` (`CN/map/impl/utility.hpp:13, 93` and, for one dimension, `98, 161`). The iterator `current` is never used and left out. -/
def NMap : Nat → Type
  | 0 => SMap Bool
  | d + 1 => SMap (NMap d)

/-- the default constructed map -/
def NMap.empty : (d : Nat) → NMap d
  | 0 => ([] : SMap Bool)
  | d + 1 => ([] : SMap (NMap d))

/-- `reinterpret_cast<const index_t1&>(i[1])` (`CN/map/impl/utility.hpp:27-28, 44, 80`): the index without its first coordinate -/
def tail {d : Nat} (i : Idx (d + 1)) : Idx d := fun j => i j.succ

/-- `new_x[0] = it->first; std::copy(x.begin(), x.end(), new_x.begin()+1)` (`CN/map/impl/utility.hpp:30-32`) -/
def cons {d : Nat} (k : Int) (x : Idx d) : Idx (d + 1) := Fin.cases k x

/-- `insert(i)` (`CN/map/impl/utility.hpp:77-80, 147-149`) -/
def NMap.insert : {d : Nat} → Idx (d + 1) → NMap d → NMap d
  | 0, i, m => SMap.insert (V := Bool) (i 0) true m
  | d + 1, i, m => SMap.modify (V := NMap d) (i 0) (NMap.insert (tail i)) (SMap.insert (V := NMap d) (i 0) (NMap.empty d) m)

/-- `find(i)` (`CN/map/impl/utility.hpp:40-44, 115-118`) -/
def NMap.find : {d : Nat} → Idx (d + 1) → NMap d → Bool
  | 0, i, m => (SMap.find (V := Bool) (i 0) m).isSome
  | d + 1, i, m =>
    match SMap.find (V := NMap d) (i 0) m with
    | none => false
    | some m' => NMap.find (tail i) m'

/-- `find_between(first, last)` (`CN/map/impl/utility.hpp:18-38, 101-113`), with the swap of the first coordinates -/
def NMap.findBetween : {d : Nat} → Idx (d + 1) → Idx (d + 1) → NMap d → List (Idx (d + 1))
  | 0, first, last, m =>
    let a := if last 0 < first 0 then last 0 else first 0
    let b := if last 0 < first 0 then first 0 else last 0
    (SMap.range (V := Bool) a b m).map fun e => cons e.1 Fin.elim0
  | d + 1, first, last, m =>
    let a := if last 0 < first 0 then last 0 else first 0
    let b := if last 0 < first 0 then first 0 else last 0
    (SMap.range (V := NMap d) a b m).foldl (fun result e => result ++ (NMap.findBetween (tail first) (tail last) e.2).map (cons e.1)) []

/-- a container after the inserts of a list of indices, in this order (`Container::insert`, `CN/map/impl/utility.hpp:173-176`) -/
def build {d : Nat} (l : List (Idx (d + 1))) : NMap d := l.foldl (fun m i => m.insert i) (NMap.empty d)

/-- `diff(a, b)` (`CN/map/impl/utility.hpp:182-187`), exact -/
def diff {d : Nat} (a b : Idx d) : Fin d → ℝ := fun i => ((a i - b i : Int) : ℝ)

/-- the scalar product `a_p * n` of `cslibs_math::linear::Vector` (external code) -/
def dot {d : Nat} (a b : Fin d → ℝ) : ℝ := ∑ i, a i * b i

/-- `Container::get_between(first, last)` (`CN/map/impl/utility.hpp:178-204`) -/
noncomputable def getBetween {d : Nat} (first last : Idx (d + 1)) (m : NMap d) : List (Idx (d + 1) × ℝ) :=
  let n := diff last first
  (m.findBetween first last).filterMap fun x =>
    let ap := diff first x
    let t := dot ap n
    if 0 ≤ t ∧ t < 1 then
      let v := fun i => ap i - n i * t
      if √(dot v v) < 1 then some (x, t) else none
    else none

end Ndt.Container
