import Verif.Spec.VisibleScan

/-!
Specification: what the operations of a history contribute to the distributions of an occupancy map.
-/

namespace Ndt.Spec
variable {K : Type} [Field K] [LinearOrder K] [FloorRing K] {d : Nat} {W E : Type} [AddCommMonoid W]

/-- Which hit bundles an operation records, and whether its misses count. Plain scans record everything. A scan with a visibility test records what one pass over its hit bundles, in lexicographic order, finds visible in the map
(distributions `content`, allocated bundles `alloc`) at that time. -/
def Outcome (sample : Pt K d → E) (g : Geo K d) (k : Kind d) (content : Nat → Idx d → Option (Occ W E)) (alloc : Set (Idx d)) : OccMapOp K d W E → Finset (Idx d) × Bool → Prop
  | .insert s, o => o = (hitBundles g k s, true)
  | .insertVisible s (some occ) (some vm), o => ∃ l : List (Idx d), l.Pairwise Before ∧ (∀ b, b ∈ l ↔ b ∈ hitBundles g k s) ∧ pass (verdict sample g k s occ vm content alloc) l ∅ = o
  | .insertVisible s _ _, o => o = (hitBundles g k s, true)
  | .core _, _ => True

/-- the points that an operation with outcome `o` adds to the distribution of grid `c` at `i` -/
noncomputable def hitsBy (g : Geo K d) (k : Kind d) (c : Nat) (i : Idx d) : OccMapOp K d W E × Finset (Idx d) × Bool → Multiset (Pt K d)
  | (.insert s, o) => hitsOn g k s o.1 c i
  | (.insertVisible s _ _, o) => hitsOn g k s o.1 c i
  | (.core _, _) => 0

/-- The misses that an operation with outcome `o` adds to the distribution of grid `c` at `i`. `skip`: `insert` does not count ray cells that are hit bundles. `fallback`: the ray tracer that `insertVisible` uses without models. -/
noncomputable def missesBy (skip : Bool) (fallback : Scan K d W → Scan K d W) (g : Geo K d) (k : Kind d) (c : Nat) (i : Idx d) : OccMapOp K d W E × Finset (Idx d) × Bool → Nat
  | (.insert s, _) => misses skip g k s c i
  | (.insertVisible s (some _) (some _), o) => if o.2 then misses true g k s c i else 0
  | (.insertVisible s _ _, _) => misses skip g k (fallback s) c i
  | (.core _, _) => 0

open scoped Classical in
/-- all hits of the scan of an operation in a cell -/
noncomputable def allHits (g : Geo K d) (k : Kind d) (c : Nat) (i : Idx d) : OccMapOp K d W E → Multiset (Pt K d)
  | .insert s => (hits g k s).filter (InCell g.r c i)
  | .insertVisible s _ _ => (hits g k s).filter (InCell g.r c i)
  | .core _ => 0

end Ndt.Spec
