import Verif.Spec.OccHistory
import Verif.Spec.ScanOrder

/-!
Specification: the same scans, some of them inserted with the visibility check in the first history, all of them without in the second.
-/

namespace Ndt.Spec

variable {K : Type} {d : Nat} {W E : Type}

/-- the same scan: pose, cloud and ray tracer; the order of the hash table may differ -/
structure SameScan (s s' : Scan K d W) : Prop where
  pose : s'.pose = s.pose
  cloud : s'.cloud = s.cloud
  ray : s'.ray = s.ray

/-- The second operation inserts the scan of the first one without a visibility check. Accesses and expansions in between are arbitrary. -/
inductive Unchecked : OccMapOp K d W E → OccMapOp K d W E → Prop where
  | visible {s s' : Scan K d W} (occ : Occ W E → K) (vm : VisModel K) (h : SameScan s s') : Unchecked (.insertVisible s (some occ) (some vm)) (.insert s')
  | insert {s s' : Scan K d W} (h : SameScan s s') : Unchecked (.insert s) (.insert s')
  | core (op op' : CoreOp d) : Unchecked (.core op) (.core op')

/-- scans only -/
def ScanOp : OccMapOp K d W E → Prop
  | .core _ => False
  | _ => True

end Ndt.Spec
