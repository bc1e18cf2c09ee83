import Mathlib.Analysis.Complex.Exponential
import Mathlib.Algebra.Order.Group.Multiset
import Mathlib.Algebra.BigOperators.Group.Multiset.Basic
import Mathlib.Logic.Function.Basic

/-!
Model of `CN/common/occupancy_distribution.hpp` and `CN/common/weighted_occupancy_distribution.hpp`.

A distribution (`StableDistribution`, `StableWeightedDistribution`) is the multiset of samples it was fed (assumption A1): points for the former, pairs of a
point and a weight for the latter.
-/

namespace Ndt

/-- Contents of an occupancy distribution: `num_free_` (resp. `weight_free_`) and `distribution_`, `none` being the null pointer
(`CN/common/occupancy_distribution.hpp:140-142`, `weighted_occupancy_distribution.hpp:143-145`). `W` is the type of the free counter, `E` the type of the
samples. -/
structure Occ (W E : Type) where
  free : W
  data : Option (Multiset E)

namespace Occ
variable {W E : Type} [AddCommMonoid W]

/-- default constructor (`CN/common/occupancy_distribution.hpp:27-30`, `weighted_occupancy_distribution.hpp:27-30`) -/
def new : Occ W E := ⟨0, none⟩

/-- newly allocated distributions of a map are default constructed -/
instance : Inhabited (Occ W E) := ⟨new⟩

/-- `updateFree(n)`; `updateFree()` is `n = 1` (`CN/common/occupancy_distribution.hpp:60-68`, `weighted_occupancy_distribution.hpp:57-60`) -/
def updateFree (n : W) (o : Occ W E) : Occ W E := { o with free := o.free + n }

/-- `updateOccupied(p)`, resp. `updateOccupied(p, w)` (`CN/common/occupancy_distribution.hpp:70-76`, `weighted_occupancy_distribution.hpp:62-68`) -/
def updateOccupiedPoint (x : E) (o : Occ W E) : Occ W E :=
  let s := match o.data with
    | none => 0
    | some s => s
  { o with data := some (s + {x}) }

/-- `updateOccupied(const distribution_t &d)` (`CN/common/occupancy_distribution.hpp:78-84`, `weighted_occupancy_distribution.hpp:70-76`) -/
def updateOccupied (m : Multiset E) (o : Occ W E) : Occ W E :=
  match o.data with
  | none => { o with data := some m }
  | some s => { o with data := some (s + m) }

/-- `updateOccupied(const distribution_ptr_t &d)` (`CN/common/weighted_occupancy_distribution.hpp:78-87`) -/
def updateOccupiedPtr (d : Option (Multiset E)) (o : Occ W E) : Occ W E :=
  match d with
  | none => o
  | some m =>
    let s := match o.data with
      | none => 0
      | some s => s
    { o with data := some (s + m) }

/-- `numFree()` / `weightFree()` (`CN/common/occupancy_distribution.hpp:86-89`, `weighted_occupancy_distribution.hpp:89-92`) -/
def numFree (o : Occ W E) : W := o.free

/-- the samples, none for a null distribution -/
def samples (o : Occ W E) : Multiset E :=
  match o.data with
  | none => 0
  | some s => s

/-- `numOccupied()` (`CN/common/occupancy_distribution.hpp:91-94`) -/
def numOccupied (o : Occ W E) : Nat :=
  match o.data with
  | none => 0
  | some s => s.card

end Occ

/-- `WeightedOccupancyDistribution::weightOccupied()` (`CN/common/weighted_occupancy_distribution.hpp:94-97`) -/
def Occ.weightOccupied {W P R : Type} [AddCommMonoid R] (o : Occ W (P × R)) : R :=
  match o.data with
  | none => 0
  | some s => (s.map Prod.snd).sum

/-- `cslibs_gridmaps::utility::InverseModel`: probabilities and their log odds. Simplification: the log odds are independent parameters instead of being computed from the
probabilities. -/
structure Ivm where
  logPrior : ℝ
  logFree : ℝ
  logOcc : ℝ

/-- `cslibs_math::common::LogOdds<T>::from` (assumption A7) -/
noncomputable def logOddsFrom (l : ℝ) : ℝ := 1 - 1 / (1 + Real.exp l)

/-- the value of the `std::size_t` expression `num_free_ + distribution_->getN() - 1` (`CN/common/occupancy_distribution.hpp:110`), wrapping at 2^64 -/
def wrapMinusOne (a b : Nat) : Nat := (a + b + 18446744073709551615) % 18446744073709551616

/-- `OccupancyDistribution::getOccupancy(const ivm_t&)` (`CN/common/occupancy_distribution.hpp:104-112`) -/
noncomputable def Occ.occupancy {E : Type} (m : Ivm) (o : Occ Nat E) : ℝ :=
  match o.data with
  | none => 0
  | some s => logOddsFrom ((o.free : ℝ) * m.logFree + (s.card : ℝ) * m.logOcc - (wrapMinusOne o.free s.card : ℝ) * m.logPrior)

/-- `WeightedOccupancyDistribution::getOccupancy(const ivm_t&)` (`CN/common/weighted_occupancy_distribution.hpp:107-115`) -/
noncomputable def Occ.occupancyW {P : Type} (m : Ivm) (o : Occ ℝ (P × ℝ)) : ℝ :=
  match o.data with
  | none => 0
  | some s => logOddsFrom (o.free * m.logFree + (s.map Prod.snd).sum * m.logOcc - (o.free + (s.map Prod.snd).sum - 1) * m.logPrior)

/-- `getOccupancy(const typename ivm_t::Ptr&)` (`CN/common/occupancy_distribution.hpp:96-102`, `weighted_occupancy_distribution.hpp:99-105`): a null pointer throws -/
noncomputable def Occ.occupancyPtr {E : Type} (m : Option Ivm) (o : Occ Nat E) : Except String ℝ :=
  match m with
  | none => .error "inverse model not set!"
  | some m => .ok (o.occupancy m)

noncomputable def Occ.occupancyWPtr {P : Type} (m : Option Ivm) (o : Occ ℝ (P × ℝ)) : Except String ℝ :=
  match m with
  | none => .error "inverse model not set!"
  | some m => .ok (o.occupancyW m)

/-- Updates of an occupancy distribution -/
inductive OccOp (W E : Type) where
  | free (n : W)
  | point (x : E)
  | dist (m : Multiset E)
  | ptr (d : Option (Multiset E))

namespace OccOp
variable {W E : Type} [AddCommMonoid W]

/-- execution of an update -/
def step (o : Occ W E) : OccOp W E → Occ W E
  | free n => o.updateFree n
  | point x => o.updateOccupiedPoint x
  | dist m => o.updateOccupied m
  | ptr d => o.updateOccupiedPtr d

/-- a history of updates of a new object -/
def run (h : List (OccOp W E)) : Occ W E := h.foldl step Occ.new

end OccOp

/-! ### objects and pointers -/

/-- The members of an (`Weighted`)`OccupancyDistribution` object: the counter and the `std::shared_ptr` to the distribution. -/
structure OccObj (W : Type) where
  free : W
  ptr : Option Nat

/-- A memory with occupancy distribution objects `objs` (numbered variables), and a heap of `StableDistribution`s. -/
structure OccMem (W E : Type) where
  heap : Nat → Multiset E
  next : Nat
  objs : Nat → OccObj W

/-- Operations on occupancy distribution objects. -/
inductive MemOp (W E : Type) where
  /-- `v.updateFree(n)` -/
  | free (v : Nat) (n : W)
  /-- `v.updateOccupied(p)` -/
  | point (v : Nat) (x : E)
  /-- `v.updateOccupied(d)` -/
  | dist (v : Nat) (m : Multiset E)
  /-- copy construction `T v(w)` or assignment `v = w` -/
  | copy (v w : Nat)
  /-- `v.merge(w)` -/
  | merge (v w : Nat)

namespace OccMem
variable {W E : Type} [AddCommMonoid W]

/-- new objects only -/
def new : OccMem W E := { heap := fun _ => 0, next := 0, objs := fun _ => ⟨0, none⟩ }

/-- allocate a distribution for `v` -/
def alloc (v : Nat) (m : Multiset E) (s : OccMem W E) : OccMem W E :=
  { heap := Function.update s.heap s.next m, next := s.next + 1,
    objs := Function.update s.objs v { s.objs v with ptr := some s.next } }

/-- execution; `deep` selects `OccupancyDistribution` (`true`: copying duplicates the distribution, `CN/common/occupancy_distribution.hpp:44-58`) or
`WeightedOccupancyDistribution` (`false`: copying copies the shared pointer, `CN/common/weighted_occupancy_distribution.hpp:44-55`). -/
def step (deep : Bool) (s : OccMem W E) : MemOp W E → OccMem W E
  | .free v n => { s with objs := Function.update s.objs v { s.objs v with free := (s.objs v).free + n } }
  | .point v x =>
    match (s.objs v).ptr with
    | none => alloc v (0 + {x}) s
    | some a => { s with heap := Function.update s.heap a (s.heap a + {x}) }
  | .dist v m =>
    match (s.objs v).ptr with
    | none => alloc v m s
    | some a => { s with heap := Function.update s.heap a (s.heap a + m) }
  | .copy v w =>
    if deep then
      match (s.objs w).ptr with
      | none => { s with objs := Function.update s.objs v ⟨(s.objs w).free, none⟩ }
      | some a => { heap := Function.update s.heap s.next (s.heap a), next := s.next + 1,
                    objs := Function.update s.objs v ⟨(s.objs w).free, some s.next⟩ }
    else { s with objs := Function.update s.objs v (s.objs w) }
  -- `CN/common/occupancy_distribution.hpp:124-133`, `weighted_occupancy_distribution.hpp:127-136`
  | .merge v w =>
    let s1 := { s with objs := Function.update s.objs v { s.objs v with free := (s.objs v).free + (s.objs w).free } }
    match (s.objs w).ptr with
    | none => s1
    | some b =>
      match (s.objs v).ptr with
      | some a => { s1 with heap := Function.update s1.heap a (s1.heap a + s1.heap b) }
      | none => { s1 with objs := Function.update s1.objs v { s1.objs v with ptr := some b } }

def run (deep : Bool) (h : List (MemOp W E)) (s : OccMem W E) : OccMem W E := h.foldl (step deep) s

/-- what `numFree()`, `getDistribution()` etc. of object `v` show -/
def view (s : OccMem W E) (v : Nat) : Occ W E := ⟨(s.objs v).free, (s.objs v).ptr.map s.heap⟩

end OccMem
end Ndt
