import Verif.Model.Export

/-! Specification of exports: which distributions are exported, and how a receiver reads a point cloud message. -/

namespace Ndt.Spec

/-- `keys` lists exactly once every distribution of the map (grid number and index) whose content satisfies `P`. -/
def Lists {d : Nat} {B : Backend d} {D : Type} (st : St B D) (P : D → Prop) (keys : List (Nat × Idx d)) : Prop :=
  keys.Nodup ∧ ∀ c k, (c, k) ∈ keys ↔ c < 2 ^ d ∧ ∃ s, st.content c k = some s ∧ P s

/-- A message is consistent (documentation of `sensor_msgs/PointCloud2` and `PointField`): the length of a row is that of its points, the data consists of the rows, and every field, i.e. its `count` elements of 4
bytes, lies inside of a point. -/
def Consistent (m : PointCloud2) : Prop :=
  m.rowStep = m.width * m.pointStep ∧ m.data.length = m.rowStep * m.height ∧ ∀ f ∈ m.fields, f.offset + 4 * f.count ≤ m.pointStep

/-- A receiver reads the (first element of the) field `name` of point number `i` (of a message with one row). -/
def readField {F : Type} (C : Float32 F) (m : PointCloud2) (name : String) (i : Nat) : Option F :=
  (m.fields.find? (fun f => f.name == name)).map fun f => C.dec ((m.data.drop (i * m.pointStep + f.offset)).take 4)

/-- The marker number `n` for a distribution with the points `s`; `none` if the distribution cannot be decomposed. -/
def markerFor {K : Type} [Field K] [LinearOrder K] {d : Nat} {Q C V : Type} (D : VizDim K d) (v : Viz K d Q C V) (n : Nat) (alpha : K) (s : Multiset (Pt K d)) :
    Option (Marker K Q C) :=
  (v.eigen s).map fun x =>
    { action := .add, id := n, position := D.position (v.origin fun a => (s.map fun p => p a).sum / (s.card : K)), orientation := v.orient x.2,
      scale := D.scale v.sqrt x.1, alpha := alpha, color := v.color (v.origin fun a => (s.map fun p => p a).sum / (s.card : K)) }

end Ndt.Spec
