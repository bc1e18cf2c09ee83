import Verif.Props.Gridmap

/-! Assumption A3 is necessary: with the lexicographic `std::min`/`std::max` of the standard library the bounds of a dynamic map would be wrong. -/

namespace Ndt

/-- `std::min(a, b)` with the lexicographic `<` of `std::array<int,Dim>`: `b < a ? b : a`. Not what the code calls if cslibs_math's overload is visible (assumption A3). -/
def lexMin {d : Nat} (a b : Idx d) : Idx d := if lexLt b a then b else a

/-- `std::max(a, b)` with the lexicographic `<`: `a < b ? b : a` -/
def lexMax {d : Nat} (a b : Idx d) : Idx d := if lexLt a b then b else a

/-- `updateIndices` (`CN/map/generic_map.hpp`, `min_bundle_index_ = std::min(...)`) over a sequence of allocated bundles, with the lexicographic versions -/
def lexBounds {d : Nat} (l : List (Idx d)) : Idx d × Idx d :=
  l.foldl (fun s bi => (lexMin s.1 bi, lexMax s.2 bi)) (fun _ => 2147483647, fun _ => -2147483648)

/-- With lexicographic `std::min`/`std::max` C13 would be false: after allocating the bundles (0,5) and (1,0) the lower bound is (0,5), not (0,0). -/
theorem A3_lexicographic_bounds_refuted : ¬ ∀ (d : Nat) (l : List (Idx d)), Spec.TightBounds {i | i ∈ l} (lexBounds l).1 (lexBounds l).2 := by
  intro h
  rcases h 2 [![0, 5], ![1, 0]] with ⟨h, _⟩ | ⟨_, h⟩
  · exact Set.notMem_empty (![0, 5] : Idx 2) (h ▸ (show (![0, 5] : Idx 2) ∈ {i : Idx 2 | i ∈ [![0, 5], ![1, 0]]} from List.mem_cons_self ..))
  · have := (h 1).1.2 ⟨![1, 0], by simp, rfl⟩
    revert this
    decide

end Ndt
