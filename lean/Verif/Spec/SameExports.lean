import Verif.Model.Entry
import Verif.Model.ExportRgb
import Verif.Model.Accessors
import Verif.Model.Convert
import Verif.Model.Mono
import Verif.Model.Matching
import Verif.Model.RasterRounded
import Verif.Model.SamplingRounded
import Verif.Spec.Later

/-! What it means that two maps cannot be told apart by exporting, converting or matching against them. -/

namespace Ndt.Spec

/-- the same converted maps and sizes: conversion to a static and to a dynamic map, list of the bundles, extent -/
structure SameConversions {d : Nat} (k : Kind d) {D : Type} [Inhabited D] (K : Type) [Field K] (st st' : St k.backend D) : Prop where
  toStatic : ∀ g, St.toStatic g st' = St.toStatic g st
  toDynamic : ∀ f f' g, St.toDynamic f f' g st' = St.toDynamic f f' g st
  bundleIndices : st'.bundleIndices = st.bundleIndices
  min : ∀ r : K, st'.getMin r = st.getMin r
  max : ∀ r : K, st'.getMax r = st.getMax r
  sizeM : ∀ (r : K) a, St.getSizeM k r st' a = St.getSizeM k r st a
  size : ∀ a, St.getSize k st' a = St.getSize k st a

/-- the same grids, cell by cell: probabilities, with values of the densities that need not be numbers, occupied cells, distances, likelihoods; `f` is the value of an object at a point -/
structure SameGrids {B : Backend 2} {D : Type} (K : Type) [Field K] [LinearOrder K] [FloorRing K] (st st' : St B D) : Prop where
  prob : ∀ (r s dflt : K) bil f, toProb r s dflt bil f st' = toProb r s dflt bil f st
  probFl : ∀ (r s : K) dflt f, toProbFl r s dflt f st' = toProbFl r s dflt f st
  binary : ∀ (r s t : K) f, toBinary r s t f st' = toBinary r s t f st
  distance : ∀ (r s : K) bil dt f, toDistance r s bil dt f st' = toDistance r s bil dt f st
  likelihood : ∀ r s sigma bil dt f, toLikelihood r s sigma bil dt f st' = toLikelihood r s sigma bil dt f st
  rounded : ∀ (R : Arith K) (r s dflt : K) (w : (Fin 2 → K) → Nat → K) (f : D → Pt K 2 → K),
    rasterizeR R r s dflt (fun b p x => St.evaluateR R (w x) (fun o => f o p) b st') st' = rasterizeR R r s dflt (fun b p x => St.evaluateR R (w x) (fun o => f o p) b st) st
  origin : ∀ (r : K) T, getOrigin r T st' = getOrigin r T st

/-- the same markers of NDT maps, in the same order and with the same numbers -/
def SameMarkers {d : Nat} {B : Backend d} {K : Type} [Field K] [LinearOrder K] (st st' : St B (Multiset (Pt K d))) : Prop :=
  ∀ {Q C V : Type} (D : VizDim K d) (v : Viz K d Q C V) marker0 dst, markersNdt D v marker0 dst st' = markersNdt D v marker0 dst st

/-- the same markers of occupancy maps -/
def SameOccMarkers {d : Nat} {B : Backend d} {K : Type} [Field K] [LinearOrder K] (st st' : St B (Occ Nat (Pt K d))) : Prop :=
  ∀ {Q C V : Type} (D : VizDim K d) (v : Viz K d Q C V) occ threshold marker0 dst, markersOcc D v occ threshold marker0 dst st' = markersOcc D v occ threshold marker0 dst st

/-- the same point clouds of NDT maps, byte by byte, and the same coloured clouds, point by point -/
structure SameClouds {B : Backend 3} {K : Type} [Field K] [LinearOrder K] (st st' : St B (Multiset (Pt K 3))) : Prop where
  cloud : ∀ {F : Type} (C : Float32 F) (cast : K → F) T dens, cloudMessage C (cloudNdt cast T dens st') = cloudMessage C (cloudNdt cast T dens st)
  rgb : ∀ {C : Type} T (interp : K → K → K → C), rgbNdt T interp st' = rgbNdt T interp st

/-- the same clouds of occupancy maps -/
structure SameOccClouds {B : Backend 3} {K : Type} [Field K] [LinearOrder K] (st st' : St B (Occ Nat (Pt K 3))) : Prop where
  cloud : ∀ {F : Type} (C : Float32 F) (cast : K → F) T dens occ threshold,
    cloudMessage C (cloudOcc cast T dens occ threshold st') = cloudMessage C (cloudOcc cast T dens occ threshold st)
  rgb : ∀ {C : Type} T (interp : K → K → K → C) occ threshold, rgbOcc T interp occ threshold st' = rgbOcc T interp occ threshold st

/-- the same costs in scan matching, also with derivatives, and the same samples in floating-point arithmetic -/
structure SameCosts {d : Nat} {B : Backend d} {D : Type} (dyn : Bool) (st st' : St B D) : Prop where
  double : ∀ g (dens : D → Pt ℝ d → ℝ) q, Matching.evaluateDouble g dyn dens st' q = Matching.evaluateDouble g dyn dens st q
  jet : ∀ g valid bell q, Matching.evaluateJet g dyn valid bell st' q = Matching.evaluateJet g dyn valid bell st q
  rounded : ∀ (R : Arith ℝ) g dens p, St.sampleNNAtR R g dyn dens p st' = St.sampleNNAtR R g dyn dens p st
  roundedBilinear : ∀ (R : Arith ℝ) g dens p, St.sampleBilinearAtR R g dyn dens p st' = St.sampleBilinearAtR R g dyn dens p st

/-- the same costs in scan matching against occupancy maps -/
structure SameOccCosts {d : Nat} {B : Backend d} {W E : Type} (dyn : Bool) (st st' : St B (Occ W E)) : Prop where
  double : ∀ {M : Type} g dens (occ : M → Occ W E → ℝ) ivm q, Matching.occEvaluateDouble g dyn dens occ ivm st' q = Matching.occEvaluateDouble g dyn dens occ ivm st q
  jet : ∀ {M : Type} g valid bell (occ : M → Occ W E → ℝ) ivm q, Matching.occEvaluateJet g dyn valid bell occ ivm st' q = Matching.occEvaluateJet g dyn valid bell occ ivm st q
  rounded : ∀ {M : Type} (R : Arith ℝ) g dens (occ : M → Occ W E → ℝ) p ivm, St.occSampleNNAtR R g dyn dens occ p ivm st' = St.occSampleNNAtR R g dyn dens occ p ivm st
  roundedBilinear : ∀ {M : Type} (R : Arith ℝ) g dens (occ : M → Occ W E → ℝ) p ivm, St.occSampleBilinearAtR R g dyn dens occ p ivm st' = St.occSampleBilinearAtR R g dyn dens occ p ivm st

end Ndt.Spec
