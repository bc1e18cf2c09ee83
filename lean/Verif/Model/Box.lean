import Verif.Model.Index
import Mathlib.Data.Fin.Tuple.Basic
import Mathlib.Data.Fintype.Basic
import Mathlib.Data.Fintype.Pi

/-!
Enumeration of the cells of an axis-aligned box, used for array storages, for the 3^Dim neighbourhood and for nested loops.
-/

namespace Ndt

/-- All indices `i` with `lo a ≤ i a < lo a + sz a`, the first coordinate varying slowest (a nest of `Dim` loops). -/
def boxList : {d : Nat} → (lo : Idx d) → (sz : Fin d → Nat) → List (Idx d)
  | 0, _, _ => [Fin.elim0]
  | _ + 1, lo, sz =>
    (List.range (sz 0)).flatMap fun (k : Nat) =>
      (boxList (fun a => lo a.succ) (fun a => sz a.succ)).map fun t => Fin.cons (lo 0 + (k : Int)) t

/-- Lexicographic `<` on `std::array<int,Dim>`, the key order of `std::map<index_t, …>`. -/
def lexLt : {d : Nat} → Idx d → Idx d → Bool
  | 0, _, _ => false
  | _ + 1, i, j => decide (i 0 < j 0) || (decide (i 0 = j 0) && lexLt (fun a => i a.succ) (fun a => j a.succ))

/-- `std::map<index_t, E>` as the list of its entries in iteration (key) order; `m[i] = f(m[i])`, where a missing entry is
value-initialised first. -/
def upsert {d : Nat} {E : Type} (dflt : E) (f : E → E) (i : Idx d) : List (Idx d × E) → List (Idx d × E)
  | [] => [(i, f dflt)]
  | (j, e) :: l =>
    if j = i then (j, f e) :: l
    else if lexLt i j then (i, f dflt) :: (j, e) :: l
    else (j, e) :: upsert dflt f i l

/-- `m.erase(i)` on a `std::map`. -/
def eraseKey {d : Nat} {E : Type} (i : Idx d) (l : List (Idx d × E)) : List (Idx d × E) := l.filter (fun e => decide (e.1 ≠ i))

end Ndt
