import Verif.Model.Matching

/-! The ceres scan matching cost with `Flag::INTERPOLATION` (2D maps only).

`ceres::BiCubicInterpolator` is external code. It is not treated as a black box here, because what the user observes is the composition: the functor hands itself to the interpolator as its grid. Assumption A10 is that
`CubicHermiteSpline` and `BiCubicInterpolator::Evaluate` of `ceres/cubic_interpolation.h` compute what `hermite`, `hermiteSlope` and `bicubic` say (Catmull-Rom splines over the 4 × 4 grid values around the point, columns first). -/

namespace Ndt.Matching
open Real

/-- value of `ceres::CubicHermiteSpline` (external, A10) -/
noncomputable def hermite (p0 p1 p2 p3 x : ℝ) : ℝ :=
  let a := 1 / 2 * (-p0 + 3 * p1 - 3 * p2 + p3)
  let b := 1 / 2 * (2 * p0 - 5 * p1 + 4 * p2 - p3)
  let c := 1 / 2 * (-p0 + p2)
  p1 + x * (c + x * (b + x * a))

/-- slope of `ceres::CubicHermiteSpline` (external, A10) -/
noncomputable def hermiteSlope (p0 p1 p2 p3 x : ℝ) : ℝ :=
  let a := 1 / 2 * (-p0 + 3 * p1 - 3 * p2 + p3)
  let b := 1 / 2 * (2 * p0 - 5 * p1 + 4 * p2 - p3)
  let c := 1 / 2 * (-p0 + p2)
  c + x * (2 * b + 3 * a * x)

/-- what `ceres::BiCubicInterpolator::Evaluate` returns: the value and the derivatives by row and by column -/
structure Jet2 where
  value : ℝ
  dRow : ℝ
  dCol : ℝ

/-- four consecutive values of a row of the grid; `none` if one of the accesses is out of contract -/
def gridRow {α : Type} (grid : Int → Int → Option α) (row col : Int) : Option (α × α × α × α) :=
  match grid row (col - 1), grid row col, grid row (col + 1), grid row (col + 2) with
  | some a, some b, some c, some d => some (a, b, c, d)
  | _, _, _, _ => none

/-- `ceres::BiCubicInterpolator::Evaluate(r, c, f, dfdr, dfdc)` (external, A10) -/
noncomputable def bicubic (grid : Int → Int → Option ℝ) (r c : ℝ) : Option Jet2 :=
  let row := ⌊r⌋
  let col := ⌊c⌋
  match gridRow grid (row - 1) col, gridRow grid row col, gridRow grid (row + 1) col, gridRow grid (row + 2) col with
  | some p, some q, some s, some t =>
    let f := fun v : ℝ × ℝ × ℝ × ℝ => hermite v.1 v.2.1 v.2.2.1 v.2.2.2 (c - col)
    let df := fun v : ℝ × ℝ × ℝ × ℝ => hermiteSlope v.1 v.2.1 v.2.2.1 v.2.2.2 (c - col)
    some ⟨hermite (f p) (f q) (f s) (f t) (r - row), hermiteSlope (f p) (f q) (f s) (f t) (r - row), hermite (df p) (df q) (df s) (df t) (r - row)⟩
  | _, _, _, _ => none

section evaluate
variable {B : Backend 2} {D : Type}

/-- `GetValue` (`C2/matching/ceres/map/gridmap_cost_functor.hpp:125-130`) -/
noncomputable def gridValue (g : Geo ℝ 2) (dyn : Bool) (dens : D → Pt ℝ 2 → ℝ) (st : St B D) (sampling : ℝ) (row col : Int) : Option ℝ :=
  (st.sampleNNAt g dyn dens ![row * sampling, col * sampling]).map fun s => 1 - s

/-- `Evaluate` for `double`, flag `INTERPOLATION` (`C2/matching/ceres/map/gridmap_cost_functor.hpp:110-114`): ceres calls it when only the residuals are wanted, and for numeric differentiation -/
noncomputable def interpDouble (g : Geo ℝ 2) (dyn : Bool) (dens : D → Pt ℝ 2 → ℝ) (st : St B D) (q : Pt ℝ 2) : Option ℝ :=
  (st.sampleNNAt g dyn dens ![q 0, q 1]).map fun s => 1 - s

/-- `Evaluate` for `Jet`s, flag `INTERPOLATION` (`C2/matching/ceres/map/gridmap_cost_functor.hpp:116-122`), called when derivatives are wanted. The result carries the derivatives by the two coordinates of `q`: the interpolator's
derivatives times the infinitesimal part of `q / sampling_resolution_`. -/
noncomputable def interpJet (g : Geo ℝ 2) (dyn : Bool) (dens : D → Pt ℝ 2 → ℝ) (st : St B D) (sampling : ℝ) (q : Pt ℝ 2) : Option Jet2 :=
  (bicubic (gridValue g dyn dens st sampling) (q 0 / sampling) (q 1 / sampling)).map fun j => ⟨j.value, j.dRow / sampling, j.dCol / sampling⟩

variable {W E M : Type}

/-- `GetValue` of occupancy maps (`C2/matching/ceres/map/occupancy_gridmap_cost_functor.hpp:133-139`) -/
noncomputable def occGridValue (g : Geo ℝ 2) (dyn : Bool) (dens : Multiset E → Pt ℝ 2 → ℝ) (occ : M → Occ W E → ℝ) (ivm : Option M) (st : St B (Occ W E)) (sampling : ℝ) (row col : Int) : Except String (Option ℝ) :=
  (st.occSampleNNAt g dyn dens occ ![row * sampling, col * sampling] ivm).map fun s => s.map fun s => 1 - s

/-- `Evaluate` of occupancy maps for `double`, flag `INTERPOLATION` (`C2/matching/ceres/map/occupancy_gridmap_cost_functor.hpp:118-122`) -/
noncomputable def occInterpDouble (g : Geo ℝ 2) (dyn : Bool) (dens : Multiset E → Pt ℝ 2 → ℝ) (occ : M → Occ W E → ℝ) (ivm : Option M) (st : St B (Occ W E)) (q : Pt ℝ 2) : Except String (Option ℝ) :=
  (st.occSampleNNAt g dyn dens occ ![q 0, q 1] ivm).map fun s => s.map fun s => 1 - s

/-- `Evaluate` of occupancy maps for `Jet`s, flag `INTERPOLATION` (`C2/matching/ceres/map/occupancy_gridmap_cost_functor.hpp:124-130`); sampling throws for a null pointer whatever the point is, so the exception of the first grid value is
the exception of all of them -/
noncomputable def occInterpJet (g : Geo ℝ 2) (dyn : Bool) (dens : Multiset E → Pt ℝ 2 → ℝ) (occ : M → Occ W E → ℝ) (ivm : Option M) (st : St B (Occ W E)) (sampling : ℝ) (q : Pt ℝ 2) : Except String (Option Jet2) :=
  let grid := occGridValue g dyn dens occ ivm st sampling
  match grid (⌊q 0 / sampling⌋ - 1) (⌊q 1 / sampling⌋ - 1) with
  | .error e => .error e
  | .ok _ => .ok ((bicubic (fun r c => match grid r c with | .ok v => v | .error _ => none) (q 0 / sampling) (q 1 / sampling)).map fun j => ⟨j.value, j.dRow / sampling, j.dCol / sampling⟩)

end evaluate
end Ndt.Matching
