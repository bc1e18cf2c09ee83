# Formal model of cslibs_ndt — design and trusted base

Paths below are relative to `/repo`; `CN` = `cslibs_ndt/include/cslibs_ndt`,
`C2` = `cslibs_ndt_2d/include/cslibs_ndt_2d`, `C3` = `cslibs_ndt_3d/include/cslibs_ndt_3d`.

## 1. Layout

* `lean/Verif/Model/*.lean` — the model: small total functions, each with a comment citing the file and
  lines it models and the simplifications made.
* `lean/Verif/Spec/*.lean` — the independent specifications used in theorem statements (geometry of cells, multisets of
  points, bounding boxes ...). They do not mention model helpers.
* `lean/Verif/Proofs/*.lean` — helper lemmas.
* `lean/Verif/Props/*.lean` — the property theorems (`C01_...`, `C02_...`) with non-vacuity `example`s beside them.
* `properties.jsonl` — the English properties; `MANIFEST.json` — status and theorem names per property;
  `seeded/LOG.jsonl` — the log of mutations of the model and which theorems caught them.

A property that is *false of the code* is kept as stated in `properties.jsonl`. For it we prove (i) a refutation
`Cxx_..._refuted` with a concrete witness and (ii) the strongest true part, `Cxx_..._partial`. Its status in the manifest is
`partial`, and section 4 lists the disagreement.

## 2. Trusted base

* Lean 4.33.0's kernel; the axioms `propext`, `Classical.choice`, `Quot.sound`, nothing else. No `sorry`, no own
  axioms, no `native_decide`/`bv_decide`.
* The reading of the C++ code: the only tie between model and code is the line-by-line correspondence cited in the comments.
* External code that is not in `/repo` (cslibs_math, cslibs_gridmaps, cslibs_indexed_storage, boost, yaml-cpp, Eigen, ceres,
  nlopt, alglib, ROS, the C++ standard library). Assumptions made about it, each stated where it is used:
  * A1 `StableDistribution` / `StableWeightedDistribution` accumulate sufficient statistics; `+=` of a point or of another
    distribution is multiset union. The model stores the multiset of points (the free commutative monoid), so that every
    order-independent statistic is a function of the model's content. Rounding of the accumulators is not modelled.
  * A2 Coordinates and resolutions are exact numbers (an arbitrary linearly ordered floor field, instantiated at the rationals and
    reals); floating-point rounding and the saturation/UB of `static_cast<int>` outside the int range are not modelled, unless a
    property is about floating point: C43, C47 and C49 carry NaN/infinity explicitly, C77 models the rounding and the `int` conversion of the
    quantisation, C78 those of the rasterisation, C83 those of sampling, C88 those of occupancies and weights (without contraction to fused multiply-add). C96 adds underflow, overflow and special values to the quantisation (C77, C93); C114 does so for sampling (C83) and C118 for occupancies (C88, C97); C119 for rasters (C78), together with the `int` arithmetic of the indices of cells. C115 and C121 do so for the single-resolution map and its conversion. C122, C123 and C126 round the poses, priors and costs of scan matching (relative errors only).
  * A3 `std::min/std::max` on `std::array<int,Dim>` are the componentwise overloads of `cslibs_math/common/array.hpp`
    (with the standard lexicographic ones C13 would be false; a theorem shows that).
  * A4 the array backend of cslibs_indexed_storage stores exactly the cells `offset <= i < offset+size`. Access outside is modelled as a
    distinct outcome ("out of contract"), and the theorems prove it is never reached. Copying it copies its cells (C20), destroying it releases them (C84).
  * A5 rigid transforms are functions on points; where needed, `w_T_m` and `m_T_w` are mutually inverse.
  * A6 line iterators (ray tracing) are arbitrary functions from two points to a finite list of indices.
  * A7 `LogOdds::from(l)` is `1 - 1/(1+exp l)` and `LogOdds::to(p)` is `log(p/(1-p))`; in C97 with the infinities of IEEE 754 for 0 and 1. In C88 `std::exp` is any increasing non-negative function with a relative error.
  * A8 `io<T>`, `array::binary`, `transform::binary` and `binary<StableDistribution,...>` of cslibs_math write a fixed number of bytes and
    `read` inverts `write` and returns the number of bytes of a full record. A short read does not throw.
  * A9 the iteration order of `std::unordered_map` is arbitrary (theorems quantify over it); `std::map` iterates in
    lexicographic key order.
  * A10 `ceres::BiCubicInterpolator` evaluates Catmull-Rom splines over the 4 x 4 grid values around the point, columns first, with the
    formulas of `ceres/cubic_interpolation.h` (written out in `Model/Interpolation.lean`, C85). Its conversion of the row and column to `int` is exact.
* Counters (`std::size_t`) are unbounded naturals, except in C21, where the 64-bit wrap-around matters; indices are unbounded integers
  except in C04 and C06, which are about machine integers and the 16-bit octree keys.

## 3. What is modelled, property by property

| id | modelled code | method |
|----|---------------|--------|
| C01 C02 C04 | `CN/utility/binary_indices.hpp`, `toBundleIndex` | algebraic law over an ordered floor field / integers / `BitVec 32` |
| C03 | `CN/utility/integer_sequence.hpp`, `merge.hpp`, `for_each.hpp`, `apply_indices` | induction over N and over argument lists |
| C05–C09 | `CN/backend/octree.hpp` as a depth-indexed tree with 2^Dim children | refinement to a finite map keyed by index; induction over histories |
| C10–C15, C18, C19 | `CN/map/abstract_map.hpp`, `generic_map.hpp`, `impl/gridmap.hpp` over a heap of distribution objects, storages and bundles holding addresses | state machine, invariant, refinement to "set of allocated bundles + multiset of points per cell"; `Props/AnyMap.lean` states them for all classes of map (arbitrary contents of a distribution), and that recorded hits lie in the bounds of occupancy maps |
| C16 C17 | static `GenericMap` with array bounds as a distinct outcome | same state machine; out-of-contract outcome proved unreachable |
| C20 C23 | copy constructors with explicit pointers/shared pointers | refutation by witness, characterisation of what is shared; for static maps of every class: simulation between operations through the copy and the same operations on the original (`Proofs/WriteThrough.lean`) |
| C21 C22 | `CN/common/occupancy_distribution.hpp`, `weighted_...` | algebra over the reals, induction over update histories |
| C24–C26 | `sampleNonNormalized*`, `CN/utility/bilinear_interpolation.hpp` | algebra, induction over dimensions; continuity (C26) topologically over ℝ: finitely many closed bundles around a point |
| C27–C30 | `impl/occupancy_gridmap.hpp`, `impl/weighted_occupancy_gridmap.hpp` | state machine of the core map with occupancy data; arbitrary ray tracer; C27 also for histories with visibility-aware insertions, as the sum of what each call records (`Spec/OccHistory.lean`) |
| C31–C34 | `CN/serialization/storage.hpp`, `loader.hpp`, `map.hpp` | byte-level encoder/decoder with an abstract fixed-size codec (A8) |
| C35 | worker threads and the shared success flag in `CN/serialization/map.hpp` | small-step interleaving semantics, invariant over all schedules |
| C36 C37 | sequence of file-system effects of `save` | crash = prefix of the effect list (with a partial last write); a prefix of a storage file is split into complete records and a rest, and a load that succeeds has inserted exactly the records it has read |
| C38 C39 | `CN/conversion/map.hpp` | core map state machine, refinement of both sides |
| C40 C41 C42 C43 | `C2/static_maps/mono_gridmap.hpp`, `C2/conversion/*.hpp` | integer arithmetic, lists of writes |
| C44–C49 | `CN/matching/**`, `C2/matching/**`, `C3/matching/**` | real analysis on exact reals; extended values with NaN for C43/C47/C49 |
| C50 C66 | `CN/map/impl/utility.hpp` | refinement of nested sorted maps to a set of indices; exact result of the line query |
| C51 | octree index range of dynamic maps | invariant over histories, in terms of the mapped area and the number of expansions; for NDT, occupancy and weighted maps (the latter two with and without visibility tests, where ray cells count too) |
| C52 C53 | header, conversion and raster arithmetic on the initial bounds | explicit overflow outcome; the exact range in which each computation is defined |
| C54 C55 | `C2/static_maps/mono_gridmap.hpp`, `C2/conversion/merge.hpp` | state machine over insertion sequences; refinement to multisets of points per cell |
| C56–C59 | `C2/conversion/{probability,binary,occupancy,likelihood_field}_gridmap.hpp`, `getOrigin` | lists of writes, exact geometry of the target cells, rotations over an ordered field |
| C60 C61 C63 | `CN/matching/ceres/**` parameter updates and point transformations | real analysis, rotation matrices as the specification |
| C62 C64 C65 | cost functions for ceres, nlopt, alglib | algebra on exact reals, induction over the points and bins |
| C67 | `insertVisible` (both classes) | exact formula for the visibility, evaluation of histories by the kernel for the witness |
| C68 | all map operations, loader, conversions | simulation relation that ignores expand flags, tree shapes and addresses; closure invariant: a cleared flag implies that all neighbours exist; for loaded static maps, whose arrays are smaller, the simulation is restricted to a set of bundles and used in both directions |
| C69 | point cloud export, expansion before it | the loop over storages visits every allocated distribution once; induction over the pushes; samples stay in their cell for all histories, so does the mean |
| C70 | message layout | bytes of the message as list, `float` as any 4-byte codec; a reader defined from the field descriptions |
| C71 | marker export 2D and 3D | fold with the reused marker object; numbering; `std::max` on special values |
| C72 C73 | size accessors, `validate`, `to_point` | bounds invariants of reachable maps; contents formula C10 |
| C74 C75 | `CN/matching/ceres/problem.hpp` | problem as parameter blocks with updates and residual blocks; invariants over all sequences of updates; cost as a sum over the blocks with NaN |
| C76 | `CN/map/abstract_map.hpp:277-306`, `CN/map/generic_map.hpp` | threads with program counters over the shared map, one access per step of an allocation, arbitrary schedules; invariant of runs of readers by induction over the schedule; races and lost updates by explicit schedules in arbitrary reachable maps |
| C77 | `CN/map/abstract_map.hpp:66-67, 323-330`, `CN/map/impl/gridmap.hpp:51-69` | rounding operators (monotone, relative error) and IEEE rounding to `t` bits, ties to even, as an instance; rounded `toBundleIndex` with undefined `int` conversion, insertion and lookup on top; error analysis, refinement as for C10, counterexample in single precision |
| C78 | `C2/conversion/probability_gridmap.hpp:37-74` and the identical loops of the likelihood, distance and binary conversions, `CN/map/abstract_map.hpp:185-193` | the raster loops of C42 with every floating-point operation rounded (operators of C77), `int` conversion of `chunk_step`; error analysis for the number of cells, the extents and the sampled places; counterexamples in double and single precision |
| C79 | `cslibs_ndt_2d/src/ndt_map_loader.h`, `cslibs_ndt_3d/src/ndt_map_loader.h` | `setup`, `run` and `resend` over arbitrary results of loading; the scalar types by the save and load model of C31–C34 with two formats |
| C80 | `C3/conversion/sensor_msgs_pointcloud2_rgb.hpp` | the export loop as in C69 with an arbitrary colour scale; lowest and highest point by induction over the cloud |
| C81 | `CN/serialization/map.hpp` (paths), `loader.hpp` (YAML headers), `filesystem.hpp` | paths as lists of components, a file system as a function from places to contents, both versions of `operator/`; reduction to C31; the YAML library is an arbitrary pair of functions |
| C82 | `CN/serialization/map.hpp`, `loader.hpp`, `storage.hpp` (`save`), traversal of the backends | traversal orders of the octree (paths) and of the array (lexicographic) are strict orders on indices, hence lists with the same members are equal; the result of `save` is a function of the bytes for all interleavings |
| C83 | `sampleNonNormalized*` of NDT and occupancy maps, `CN/utility/bilinear_interpolation.hpp`, `div_count` (`CN/map/abstract_map.hpp:44`) | the sampling functions of C24–C26 with every floating-point operation rounded (operators of C77); the position in a bundle is exact up to one rounding because the floor of a float is a float; induction over bins and dimensions; counterexamples in single and double precision |
| C84 | `CN/map/abstract_map.hpp:95-121`, `CN/backend/octree.hpp` (no destructor), `CN/common/bundle.hpp` | the copies of C20 with a set of released objects, reading a released object as a distinct outcome; which objects a map owns and its bundles point to, by induction over histories of both objects, without assuming that bundles point to own objects |
| C85 | `C2/matching/ceres/map/gridmap_cost_functor.hpp:80-134`, `C2/matching/ceres/map/occupancy_gridmap_cost_functor.hpp:84-144` (`Flag::INTERPOLATION`) composed with ceres' bicubic interpolation (A10) | real analysis: the pieces of the spline and their slopes agree on the grid lines; one-sided derivatives; refutations on a map with three points, for every density |
| C86 | `CN/map/generic_map.hpp:98-103, 236` (move constructors, which copy), `C2/static_maps/mono_gridmap.hpp:90-114, 168-177, 216-224`, on the model of copies (C20, C84) | induction over interleaved histories of the two objects; refutations in general form (for every reachable map) |
| C87 | `C2/static_maps/mono_gridmap.hpp:116-165, 207-267` (accessors) on histories of insertions and requested cells | invariant over histories: a cell is allocated iff it was requested or hit |
| C88 | `getOccupancy` of `CN/common/occupancy_distribution.hpp:104-112` and `weighted_occupancy_distribution.hpp:57-68, 107-115` | every operation rounded (operators of C77), `exp` as any increasing approximation; monotonicity of roundings, error analysis with the logistic function 1/4-Lipschitz; induction over histories for the weights; counterexamples in single precision, transferred from the rationals to the reals |
| C89 | `CN/map/abstract_map.hpp:262-268` getByteSize, `CN/backend/octree.hpp:347-368`, the `byte_size` members of bundles and distributions (`Model/ByteSize.lean`) | structural induction over octrees: the nodes of a well-formed tree are one per level and non-empty cube; the invariant that storage `c` holds exactly the cells of the allocated bundles; static maps not covered (array sizes are external) |
| C90 | `CN/map/abstract_map.hpp` allocatePartiallyAllocatedBundles, `CN/map/impl/gridmap.hpp:100-178`, `occupancy_gridmap.hpp:243-337` (`Model/Map.lean`, `Model/Sampling.lean`) | after the allocation every bundle of the region with an expandable bin is allocated (shared cells imply neighbouring bundles, C18 and the invariant of expanded bundles); lookups preserve this; so the value 0 of a bundle that is not allocated equals the sum over its cells |
| C91 | `insert`, `insertVisible` and `sampleNonNormalized*` of all map classes | the motion cancels in the map coordinates of every point and of the ray origin; induction over the history |
| C92 | as C90, C27 | C90 (C10, C27) for both maps; moving by t half cells maps the cells of grid c onto the cells of grid c xor (parity of t); bundles, regions, means of hits and rays move along; the sum over the grids is reindexed; with insertVisible: simulation over the history, contents and expansion flags of both maps correspond after every operation, verdicts are equal bundle by bundle in the order of the specification of C29 |
| C93 | as C27–C30 and C77 | the operations of the occupancy maps with the rounded `toBundleIndex` of C77; the contributions of a scan are computed from the collected updates as for C27; agreement of the quantisations gives equality of whole runs; counterexample in single precision |
| C94 | the entry points of the conversions with null sources and models, `allocate_all` and the previous target; the point cloud export with its exceptions | contents and bundles from C18; a map after one allocation is complete (C90), hence the second raster has the same values at the same places; a third allocation changes nothing (C18); counterexamples: a static map with default value -1, a 3D occupancy map without model |
| C95 | `insert` and `insertVisible` of both occupancy maps, sequences of scans | an `insert` is a list of additive contributions; two lists with the same sums per distribution and the same touched bundles lead to the same abstract state; hits, misses and touched bundles of the pieces of a scan add up if the rays are the same; the mean of points in a bundle is in the bundle; counterexamples evaluated in the kernel |
| C96 | the two resolution members, `toBundleIndex` and `insert` of all three maps in the formats binary32 and binary64 with subnormal numbers, infinities and NaN | rounding of the model proved to be the nearest number of the format with ties to even, overflow threshold as in IEEE 754; equal to the unbounded rounding of C77 on normal numbers, so the index differs only where a negative product underflows to zero; runs are equal if indices of all offered points are; contents and mass by induction over the history; counterexample evaluated in the kernel |
| C97 | `getOccupancy` of both occupancy distributions and the sum over a bundle, with infinite log odds and NaN | case analysis on which probabilities are 0 or 1, for arbitrary counts; NaN absorbs sums by induction over the bundle; counterexample for a concrete model |
| C98 | all exports and conversions: grids, clouds, markers, static, dynamic and single-resolution maps, sizes, scan matching costs | the traversals of two maps with equal visible state are related entry by entry (orders of C82); every export is a function of the related entries; allocation by the simulation of C68 |
| C99 | insertion into all three map classes, sampling | a sample is determined by the allocation of one bundle and the contents of its `2^d` cells; both are affected only by entries of the update lists in bundles that share a cell, i.e. in neighbouring bundles (index arithmetic of C01) |
| C100 | all of C31, C38, C39, C20, C86 in sequence, interleaved with insertions | induction over sessions: after every stage the map is like (in the sense of C68) the map of the uninterrupted history; each kind of interruption preserves the visible state of every map in a consistent state, not only of maps reachable from a new one |
| C101 | the ceres problems, the nlopt and alglib functions of the matching model, and the maps of C91 | poses as maps on points: two poses moved by the same function keep distance and angle; finite prior residuals count by the sum of their squares even after NaN; the scan term by C91; counterexample for Euler angles |
| C102 | the cost functors and parameter updates evaluated on `ceres::Jet` with derivative parts (`Model/Jet.lean`) | each `Jet` operation keeps value and derivative; with the bundle fixed the residual is smooth, and the poses that stay in the bundle contain a cone, so a derivative of the residual is the one of the `Jet`; the branch for residuals of value 0 is right because the residual is not negative; the angle difference is affine in a one-sided neighbourhood; for the whole problem, the sum of the squared residuals is differentiated term by term (`C102_cost_*`) |
| C103 | `sampleNonNormalized` as a function of the point (`Model/Sampling.lean`) | near a point only the finitely many bundles whose closure contains it matter; adjacent bundles that differ on `k` axes share `2^(d-k)` distributions, counted with the identity that interpolation weights sum to 1 |
| C104 | the existing models of histories, run with converted geometry, clouds and poses | renaming the contents of all distributions commutes with every operation (`Proofs/MapData.lean`); indices and weights contain lengths only as quotients; rounding commutes with powers of two |
| C105 | the existing models of histories of the three classes; `Spec/Kinds.lean` lists the scans of a history | from the exact contents (C10, C27) and the sampled field (C90); three refuted parts with witnesses |
| C106 | the existing models of histories, run with permuted coordinates (`Spec/Axes.lean`) | from the exact contents (C10, C27) and the sampled field (C90); cells, bundles, rays and hat functions commute with permutations |
| C107 | `Model/MarkerShape.lean`: orientation and scale of the markers, with Eigen's conversion of a matrix to a quaternion (external) written out; the eigen-decomposition is any function that returns valid decompositions (`Spec/MarkerShape.lean`) | all markers by C71; the products of the quaternion's components from the orthogonality relations and the determinant in each branch; ellipsoids by Cauchy-Schwarz; refuted for reflections |
| C108 | the model of C21 and C27; Bayes' rule and scans that look through a bundle in `Spec/Evidence.lean` | folding Bayes' rule adds logarithmic odds; the later scans add hits and misses to the counts of any reachable state (monoid homomorphisms, as in C27); samples are means of values bounded by the occupancy times the density |
| C109 | the model of C10 and C27; cells inside of cells in `Spec/Resolutions.lean` | every point lies in exactly one cell of each grid; the cells inside of a cell are a box of indices; multiplicities of points counted per cell |
| C110 | the model of C10, C27 and C90; mirror images in `Spec/Mirror.lean` | mirror image of a half-open interval whose ends the point avoids; the mean of points of a bundle on no borders is on no border; composition with C106 |
| C111 | colour limits of `C3/conversion/distributions.hpp` (`Model/MarkerColor.lean`) on top of C71 | stored points lie between the corners of the map (C13), so do their means; a linear function with non-negative coefficients is monotone on the box |
| C112 | the NDT, occupancy and weighted models with two kinds of maps | exact contents (C10, C27) as filters by the area; valid bundles are those inside of the area, so hit bundles and rays agree; the fields by C90 |
| C113 | the samples of NDT, occupancy and weighted maps | a sum of nonnegative terms is positive iff one of them is; the hat function is positive in the open cell only; contents by C10/C27, completeness after allocation by C90, growth by the contribution of each operation |
| C114 | the sampling functions of C83 once more in a format with bounded exponents (`Model/SamplingFormat.lean`) | sums of numbers of a format do not underflow, so they are the sums of C83; rounding is monotone and fixes the numbers of the format; each product loses at most half the smallest number; NaN stays NaN through sums and products |
| C115 | the functions of the single-resolution map on points of arbitrary values of a format (`Model/MonoFormat.lean`) | a cell of edge r is a bundle of a map with resolution 2r, so that the theorems of C96 apply; induction over the insertions; concrete corners |
| C116 | the model of `insertVisible` (C29); maps without hits in `Spec/FreeSpace.lean` | occlusion of a bundle is 1 if all neighbours towards the sensor are outside of the map and 0 otherwise; the walk along the ray is the comparison of one product with the prior; powers of a number below 1 |
| C117 | histories of `insert` and `insertVisible`; corresponding operations in `Spec/VisibleLess.lean` | induction over both histories at once; the contribution of one step (C27) is monotone |
| C118 | `getOccupancy` in a binary format with bounded exponents, infinities and NaN (`Model/OccFormat.lean`) | order of floating-point values, monotone rounding; agreement with the rounded model of C88 by case analysis on underflow and overflow of `exp`, of the denominator and of the quotient; a gap lemma for numbers near 1 bounds log odds from below |
| C119 | the raster loops of C78 in a binary format with bounded exponents, for any value of `sampling_resolution`, with the conversions to `int` and `std::size_t` and the `int` arithmetic of `(bi[0] - min_bi[0]) * chunk_step + k` (`Model/RasterFormat.lean`) | bounds by powers of two show that every intermediate result is zero or normal, sums of format numbers never underflow; a gap lemma: a quotient of two format numbers below 1 is not rounded to 1; tight bounds of dynamic maps (C13) for the converse |
| C120 | `getOccupancy` as in C118 (`Model/OccFormat.lean`) | reduction to unbounded exponents (C118), bounds of the rounded exponential by powers of two, rounding of numbers next to 1; the error of the evidence from C88 |
| C121 | the conversion of the single-resolution map as in C43, with the size of the target, the corners of its cells and the indices of the source computed in `float` or `double` (`Model/MonoRasterFormat.lean`) | product and quotient reduce to rounding to significant bits; monotonicity of rounding reduces all columns to the last one; relative errors bound the deviation; the counterexamples by evaluation in the kernel |
| C122 | `EulerPlus`, `YawOnlyQuaternionPlus`, the quaternion product, the rotation of a point and the 2D and 3D scan transformations, with every operation rounded (Model/PoseRounded, Model/PoseRoundedRPY) | error of one update by components, exact updates are isometries, induction over the updates; Lipschitz bound of the rotation in the quaternion; instance for double |
| C123 | the translation priors and the three rotation priors of ceres with every operation rounded, and `sin`, `cos`, `atan2` of a library of given accuracy (Model/PriorRounded) | monotone rounding for the exact bound; perturbation of the angle of a point near the unit circle (Jordan's inequality); the exact difference is the smallest representative (C44); instance for double with the value of `M_PI` |
| C124 | the cost functions of ceres, nlopt and alglib (Model/Problem, Model/Matching); poses that are not worse than the initial guess | cost formulas of C75 and C65, map values in `[0, 1]` for all histories (C24, C62); witnesses for the quaternion variants |
| C125 | `Problem2d` on a static map, values by interpolation or by sampling (Model/Problem, Model/Interpolation, Model/Matching) | cost formula of C75, continuity of the interpolated value (C85), value 1 far from the map; a continuous function on a compact set has a minimum; witness with a prior at a bundle border |
| C126 | `apply` and `mapScore` of nlopt (2D and 3D, Euler angles and quaternions, NDT and occupancy maps) and of alglib (2D and 3D with Euler angles), the scan residuals of ceres, with every operation rounded (Model/CostRounded) | calculus of numbers that are right up to k roundings (sum, product with a weight, square root), induction over the points; monotone rounding and exact integers for the sum and the trust region |
| C127 | the cost of a ceres problem (Model/Problem), the functions of nlopt and alglib (Model/Matching), for two scans of which a multiple of the one is a multiple of the other | the mean of any function over the points depends on the proportions only; the cost is the mean (C75, C65), or the mean divided by the number of points (alglib, nlopt on 2D occupancy maps): negation with a scan of one point that is recorded twice |
| C128 | as C127, for two scans that consist of common points and of others, which make up a limited share of either | the means of a function between 0 and 1 over the two scans differ by at most that share, also if the numbers of points differ; the cost is the mean times a weight (C75, C65, C48) |
| C129 | as C124 | a pose that is not worse lies within the limits of C124; there the map term is constant, and the prior is 0 at the guess only (C65, C75) |
| C130 | the score functions of nlopt and alglib (Model/Matching) | the score is the mean of the scores of the points (C48); Markov's inequality in both directions by induction over the points; negation for nlopt on occupancy maps for all scans without a score |
| C131 | as C124; insertions into NDT and occupancy maps | two costs that agree where a pose can be as good as the guess (C124, C75) have the same best poses; samples far from an insertion are unchanged (C99); a moved point is within the reach of the scan of the pose |
| C132 | the cost functions of nlopt, alglib and ceres for two maps (Model/Matching, Model/Problem) | point costs are nonexpansive up to the smallest normal number; sums, means and squares by induction over the points; ceres via the closed form of the cost (C75); rounded samples via C83; negation for nlopt on 3D occupancy maps |
| C133 | the cost and score functions of nlopt, alglib and ceres for two sets of weights (Model/Matching, Model/Problem) | scaling of the costs term by term; exchange argument for the minima of m A + B; ceres via the closed form of the cost (C75); negation for the score of alglib with a map of three score levels |
| C134 | the cost and score functions of nlopt, alglib and ceres for a scan and for its two parts (Model/Matching, Model/Problem) | sums over concatenated lists; scores via C48; ceres via the closed form of the cost (C75); negation for alglib and nlopt on 2D occupancy maps with a point that is scanned twice |

Not modelled (no semantic content of their own or outside code): ROS itself, topics and parameters,
`interpolateColor`, the sympy scripts under `res`, CMake, the YAML reader/writer library, `OcTree::clear` (a template whose parameter
cannot be deduced, so it cannot be instantiated), commented-out code, and the headers that only name template instances or forward
to a modelled function with fixed template arguments (`C2` and `C3`: `dynamic_maps/*.hpp`, `static_maps/*gridmap.hpp` except the single-resolution map, `serialization/**`, `conversion/gridmap.hpp`, `conversion/occupancy_gridmap.hpp`;
`CN/utility/utility.hpp`, `CN/matching/*/function.hpp`).

## 4. Disagreements between the code and the stated properties

Each is proved as a theorem about the model (name in brackets); what is true instead is in the `_partial` theorems of the same property.

* C06: octree keys are the low 16 bits of each coordinate, so indices that differ by 2^16 share data (`C06_octree_alias_refuted`). `traverse` reports the first inserted of the aliasing indices (`C06_traverse_first_index_partial`).
* C08: `OcTree::size()` counts all nodes of the tree, on top of an uninitialised member (`C08_size_refuted`).
* C17: static maps reject the last row of bundles in every dimension although `getMax()` includes it (`C17_static_accepts_refuted`).
* C19: a second call of `allocatePartiallyAllocatedBundles` can allocate more bundles (`C19_expand_idempotent_refuted`); from the third call on nothing changes.
* C20: copies of dynamic maps share the octree nodes, copies of static maps share the distribution objects (`C20_*_refuted`).
* C21: merging an empty distribution makes the occupancy 1/2 (`C21_empty_distribution_refuted`; excluded by the quantifier of C21).
* C23: merging into an occupancy distribution without data, and copying a weighted one, alias the data pointer (`C23_merge_refuted`, `C23_weighted_copy_refuted`).
* C28: `OccupancyGridmap::insert` gives free updates to hit bundles of the same scan (`C28_occupancy_insert_refuted`); the weighted class does not.
* C29: one occluded ray makes `insertVisible` return from the whole call, dropping the remaining hits and all free updates (`C29_independent_rays_refuted`). What every call does instead is stated exactly by `C29_occupancy_exact_partial` and `C29_weighted_exact_partial`.
* C30: without models the weighted `insertVisible` falls back to the default line iterator instead of its own (`C30_weighted_refuted`).
* C32: `read` of weighted occupancy distributions reports 8 bytes more than it read, so the reader stops early (`C32_refuted`, `C32_weighted_loss_refuted`).
* C33: static maps with an odd minimum index are loaded into arrays that are too small (`C33_odd_minimum_refuted`).
* C34: `load` detects missing files only; truncated or otherwise damaged files are accepted (`C34_never_rejected_refuted`, `C34_truncated_refuted`).
* C35: `success = success && f()` is not atomic across the threads; failures get lost (`C35_lost_failure_refuted`, `C35_load_refuted`).
* C36 C37: `save` removes the old directory first and does not publish atomically (`C36_crash_refuted`, `C37_crash_refuted`). The reading loop does not notice an incomplete last record: its distribution is decoded from too few bytes (`C37_torn_refuted`).
* C40: `MonoGridmap` accepts the row behind the last one (`Mono.C40_out_of_range_refuted`).
* C43: NaN reaches the raster of NDT maps (`C43_nan_refuted`).
* C45 C60: quaternion yaw steps do not add up, Euler steps are clamped at ±π instead of wrapped (`C45_compose_refuted`, `C60_clamped_refuted`).
* C46: the quaternion rotation prior has the same cost for all rotations (`C46_constant_refuted`).
* C47: the "nan test" `value == -value` is never true for NaN (`C47_nan_refuted`).
* C48 C49: nlopt on occupancy maps: `mapScore` does not invert `apply`, and in 3D points off the map are skipped, which lowers the cost (`C48_occupancy2_refuted`, `C48_occupancy3_refuted`, `C49_occupancy3_refuted`).
* C52 C53: `max - min` of the initial bounds overflows: saving, converting, rasterising or merging an empty dynamic map is undefined (`C52_empty_map_refuted`, `C53_*_refuted`).
* C55: merged distributions are in map coordinates, but are evaluated at world coordinates (`Mono.C55_frames_refuted`).
* C56 C57: raster cells are displaced if the sampling resolution does not divide the bundle resolution, and reported at the wrong place for rotated origins (`C56_position_refuted`, `C57_rotated_refuted`).
* C65: the quaternion variants of the nlopt and alglib priors do not vanish at the initial guess (`C65_nlopt_quat_refuted`, `C65_alglib_quat_refuted`).
* C66: the line query takes the difference the wrong way round and does not normalise the parameter (`C66_line_query_refuted`).
* C67: for a bundle that shares a coordinate with the origin, the neighbour tested on that axis is beside or behind the bundle (`C67_only_between_refuted`).
* C68: a loaded static map has a storage of one row less than the original (see C33). If the minimum index is odd in the first dimension, a map without a bundle in the last accepted row is loaded completely, but a later
  insertion or lookup in that row, which the original accepts, leaves the array of the loaded map. Proved: every other later history has the same results, and exactly the histories that create such a bundle are undefined.
* C69: NDT maps export distributions without points too, at the map origin (`C69_empty_distributions_refuted`).
* C70: the element count of every field of the point cloud message is the number of points instead of 1 (`C70_field_count_refuted`).
* C72: `getSizeM()` of a static map is one resolution too large; `getSize()` of a dynamic map is the difference of the bundle bounds, 0 for one bundle; both are undefined for an empty dynamic map (`C72_*_refuted`).
* C75: the rotation prior of the quaternion problem adds a constant to the cost (`C75_quaternion_refuted`, follows from C46).
* C76: `getDistributionBundle() const` allocates through `mutable` members without synchronisation: a lookup of a missing bundle races with every other `const` function
  (`C76_race_refuted`, `C76_race_bounds_refuted`), another thread can get a bundle with null pointers (`C76_incomplete_refuted`), and a bundle can stay outside the bounds for good (`C76_lost_bounds_refuted`).
* C77: the index is computed from two rounded results. In a map of floats with resolution 0.1 the float 0.25 is recorded beyond the border it lies before (`C77_exact_cell_refuted`), and a static map
  accepts it although it lies outside of its region (`C77_region_refuted`). Coordinates beyond 2^31 bundles are converted to `int` without a check (`C77_overflow`).
* C93: the same point counts as a hit in the wrong cell of an occupancy map (`C93_exact_cell_refuted`).
* C94: with `allocate_all`, the second conversion of an untouched map need not give the same grid as the first one: the second call allocates further bundles (C19), whose cells turn from the default value to 0 (`C94_repeat_refuted`). The grid conversions of occupancy maps return for a null inverse model, but the export to a point cloud throws, after the source has been extended (`C94_cloud_without_model_refuted`).
* C95: inserting a cloud in pieces is not the same as inserting it at once. There is one ray per hit bundle of a call, to the mean of its points, so two points of one bundle in two calls trace two other rays. `WeightedOccupancyGridmap` drops misses in bundles that the same call hits, so there even pieces without common bundles differ. The order of `insertVisible` calls matters: a point behind a wall is recorded if it is inserted before the wall. The order of plain `insert` calls does not matter.
* C96: `p * bundle_resolution_inv_` underflows to zero for tiny negative coordinates if the resolution is 4 or more, so they get index 0 instead of -1 (`C96_exact_refuted`, for every power of two from 4 on, float and double). The error is below `r * 2^-150` for float. A point that is normal in world coordinates can have such map coordinates (`C96_stored_exact_refuted`).
* C97: `num_free_ * getLogOddsFree()` is NaN for `num_free_ == 0` and infinite log odds, so an inverse model with `prob_free` 0 makes every cell with hits and without misses NaN (`C97_nan_refuted`), and with it every sample of its bundles (`C97_sample`). A prior of 0 turns into an occupancy of 1 from the second hit on (`C97_prior_inverted`).
* C101: the rotation prior with Euler angles compares the three angles one by one, so its cost is not a function of the rotation: `(π, π, π)` and `(0, 0, 0)` are the same rotation (`C101_rpy_refuted`). It is invariant under motions about the vertical axis (`C101_ceres_rpy_partial`). nlopt with quaternions compares the Euler angles of the pose with the components of the guess: with a quaternion as the guess the value changes with the frame (`C101_nlopt_quaternion_refuted`), with Euler angles in its place it does not for motions about the vertical axis (`C101_nlopt_quaternion_partial`).
* C105: for the same scan the weighted map counts fewer misses than the occupancy map, because only its `insert` drops misses in bundles that the same call hits (`C105_misses_refuted`). `insert` of occupancy maps tests `isNormal()` in the sensor frame as well, `insert` of NDT maps only in the world frame: if `isNormal` is `std::isnormal` on the coordinates, points with a zero coordinate in the sensor frame enter NDT maps only (`C105_not_normal_refuted`). Rays allocate bundles, so without neighbourhood allocation samples next to hits differ (`C105_unexpanded_refuted`).
* C106, C110: `insertVisible` goes through the hit bundles in the order of their indices, and hits that it has recorded occlude the later ones, so what one scan leaves in the map depends on the order and the directions of the axes: with exchanged axes or in a mirror image a scan may record a point that the original call drops (`C106_visible_refuted`, `C110_visible_refuted`). `insert` is symmetric.
* C107: the eigenvectors are passed to `Eigen::Quaternion(matrix)` as they are. If their determinant is -1, the result is no rotation: in 2D it is always `(sqrt(1/2), 0, 0, 0)`, so the marker of an oblique distribution is drawn parallel to the axes of the map, with a quaternion that is not normalised (`C107_reflected_2d`, `C107_reflected_refuted`). Flipping one column would repair it. Which handedness the solver returns is up to external code.
* C111: the colour scale of the 3D markers runs from the height of `getMin()` to that of `getMax()` after the transformation into the frame of the message; for tilted maps markers lie outside of it, or it is reversed (`C111_tilted_refuted`).
* C112: static occupancy maps drop scan points outside of the map together with their rays, so the free space that these rays pass inside of the map is not recorded (`C112_free_space_refuted`). With `insertVisible` even the hits differ: cells outside of the smaller map count as occupied (`C112_visible_refuted`).
* C114: a positive density in every bin does not make a sample positive: in a map of floats densities of `2^-149` have the mean `2^-149`, but the sample is 0, because the products with `div_count` underflow before they are added (`C114_positive_refuted`). Only the exact threshold is provable (`C114_nearest_positive`).
* C115: `mono::Gridmap::insert` does not test its point for being normal (`insert` of the NDT maps does), so NaN reaches `static_cast<int>`. The corner `getMin()` is computed as index times resolution, and its
  own index is computed with the rounded inverse of the resolution; for resolution 0.1 and index -3 (double) the result is -4, so the map rejects its own corner. Static NDT maps have the same defect (resolution 0.2).
* C116: in `insertVisible` every cell of a ray multiplies the visibility with `getProbOccupied()` even if nothing is in the way, so that for probabilities below 1 rays of a certain length make the call return (`C116_range_refuted`). `occlusion_prob` starts with 1 and neighbours outside of the map are skipped, so that a cell with no valid neighbour towards the sensor counts as fully occluded: nothing is ever recorded from a sensor beyond a static map or in its last corner (`C116_border_refuted`, concretely `C116_refuted`). Starting with 0 for cells without valid neighbours would repair the latter.
* C78: `chunk_step` truncates a rounded quotient. In a map of doubles with resolution 0.6 and the sampling resolution 0.05 it is 5, not 6 (`C78_step_refuted`), so every bundle loses a row and a column of
* C119: no conversion checks `sampling_resolution`: zero and NaN reach `static_cast<int>` of an infinite or NaN quotient (`C119_nan_zero`), and the indices of cells are computed in `int` before they are stored in `std::size_t`, so that a map with more than 2^31 columns overflows (`C119_too_many_cells`, `C119_overflow_sample`).
* C120: exact certainty is final in a weighted map of floats if a hit outweighs the largest free weight that misses can reach: after one hit of weight 2^25 the occupancy is exactly 1 after any number of misses of weight 1 (`C120_weighted_final_refuted`), because the free weight stops at 2^24 (C88).
* C121: with rounding, the conversion of a single-resolution map to a probability grid reads beyond the source. The width `7 * 0.01` is rounded in `double`, and divided by 0.01 it gives slightly more than 7, so `std::ceil` yields 8 columns. The last one computes the same quotient and reads the column 7 of a map with the columns 0 to 6. `storage_->get(idx)` is not checked. `float`: 55 columns. In exact arithmetic it cannot happen (C43). Proved instead: the exact condition, never more than one column or row beyond, and resolutions for which it does not happen.
* C124: with quaternions the rotation weight does not limit the rotation. With ceres half a turn can be better than the guess for every rotation weight (`C124_quaternion_refuted`); with nlopt another rotation is better than the guess even if the map weight is 0 (`C124_nlopt_quat_refuted`). Also note that with alglib and with nlopt on 2D occupancy maps the limit shrinks with the number of points (`C124_alglib`, `C124_nlopt_occupancy2`): the map term is divided by the number of points before it is squared, so a scan with more points has less influence on the pose.
* C125: without interpolation a matching problem need not have a best pose (`C125_direct_refuted`, `C125_nlopt_alglib_refuted`). The sample jumps at the upper border of a cell, which does not belong to the cell, so that poses can approach the border and get better and better while the pose at the border is worse. The same holds of the interpolated cost where ceres evaluates it without derivatives, since those values are not interpolated (see C85).
* C127: alglib minimizes the sum of squares of residuals that are divided by the number of points each, and nlopt on 2D occupancy maps squares a cost that is divided by the number of points, so that the sum over the points falls with their number while the priors stay (`C127_alglib_partial`). With every point recorded twice, the weight of the map against the priors is halved, which can reverse the order of two poses (`C127_alglib_refuted`). Ceres divides by the square root of the number of points and is not affected.
* C129: with quaternions, where the map knows nothing, every rotation is as good as the prior rotation (`C129_quaternion_refuted`), a consequence of the constant rotation prior (C46, C65).
* C130: with nlopt on 3D occupancy maps, a scan that meets the map nowhere gets the perfect score 1, since its points are skipped but the sum is subtracted from 1; on 2D occupancy maps, it gets 1 - 1/(4 n) at the guess (`C130_occupancy_refuted`).
* C132: with nlopt on 3D occupancy maps, the cost is not continuous in the map: a point whose score drops below the smallest normal number is skipped; for a scan of one point, this lowers the cost by nearly the map weight (`C132_occupancy_refuted`).
* C133: alglib minimises the squared losses but `mapScore` reports the mean score, so a higher map weight can make the score of the best pose worse (`C133_alglib_score_refuted`).
* C134: alglib, and nlopt on 2D occupancy maps, divide the residual of a point by the number of points before squaring it. So the weight of the map falls with the number of points, and a pose that is best for both halves of a scan need not be best for the scan (`C134_squares_refuted`).
  cells and is drawn one further cell off per bundle (`C78_position_refuted`); 0.3 / 0.05, 1.2 / 0.05 and 0.7 / 0.025 behave alike. With `float`, the target can be one cell too narrow for very fine
  rasters (`C78_safe_refuted`), and the conversion writes outside of it.
* C79: `run` tries `setup<float>` only if `setup<double>` has failed, but `loadBinary` fails only if a file cannot be opened (C34). A saved map of floats is read as a map of doubles
  (`C79_float_refuted`) and has fewer bundles than the saved one (`C79_float_bundles_refuted`). "Setup successful" is printed also after a failure (`C79_message_refuted`).
* C80: as for C69, empty distributions of NDT maps are exported at the origin of the map; they also widen the colour scale (`C80_empty_distributions_refuted`).
* C81: `map.hpp:96,100` opens the YAML header under `path_root / (path_root / "map.yaml")`. For a path that names a directory this is a file in another directory below it: `load` throws (`C81_yaml_throws_refuted`) and never reads the header (`C81_yaml_ignored_refuted`).
* C83: the rounded weights of the bins do not sum to 1. Interpolation between densities that are all 1 yields `1 + 2^-23` in a map of floats (`C83_bilinear_float_refuted`) and `1 + 2^-52` in a map of doubles (`C83_bilinear_double_refuted`).
* C84: the bundles of a copied static map still point into the original. Once the original is destroyed every one of them dangles (`C84_copy_dangling_refuted`). `OcTree` declares no destructor and holds its
  nodes by raw pointers: a destroyed dynamic map leaks all of them (`C84_dynamic_leak_refuted`).
* C85: with `Flag::INTERPOLATION`, `Evaluate` for `double` still samples the map directly. Ceres calls it whenever it needs only residuals (and for numeric differentiation), so the accepted cost and the
  linearised cost are different functions away from the sampling grid (`C85_same_cost_refuted`). The interpolated cost overshoots: it exceeds 1 next to an occupied cell (`C85_unit_interval_refuted`).
* C86: move constructors of maps are written `GenericMap(GenericMap &&other) : base_t(other)`; a named rvalue reference is an lvalue, so they copy, and `AbstractMap(AbstractMap &&)` is never used. A static map that is
  moved out of a temporary refers to released objects from the end of the temporary on (`C86_static_move_refuted`). Returning a map by value is affected only if the move is not elided. The move constructor of the
  single-resolution map leaves the source connected with the new map (`C86_mono_move_aliases_refuted`).
* C87: `max_index_` of the single-resolution map is `min + size`, one too much (also C40): `getMax` and `validate` include a row that does not exist (`C87_extent_refuted`). `getOrigin` does not rotate the corner
  (`C87_rotated_refuted`, as C57).
* C88: the prior is subtracted `n - 1` times, so for priors below 1/2 two large rounded numbers cancel: in a map of floats with the probabilities 0.3, 0.2, 0.7 and about ten million observations of a cell a miss
  raises the occupancy from below 0.35 to above 0.45 (`C88_miss_refuted`). `weight_free_` is a `T`: in weighted maps of floats it stops at 2^24 misses (`C88_lost_misses_refuted`) and depends on their order (`C88_order_refuted`).
* C103: without interpolation the sampled value is not continuous: a border of bundles exchanges half of the distributions that are averaged, and the value jumps by up to half the largest density on a face
  (`C103_continuous_refuted`; the map of the witness is fully expanded and its densities are constant). The bound `C103_jump_partial` says how far at most.

Observed in the text, not modelled: the result of `out.close()` is not checked when saving. The ceres functors keep references to the map and to the caller's `shared_ptr` of the inverse model, so a temporary
pointer passed to `CreateAutoDiffCostFunction` dangles. A sampling resolution of 0 is not rejected.

## 5. Status log

The status of each property is in `MANIFEST.json`. The seeded errors and the theorems that catch them are in `seeded/LOG.jsonl`. A line whose id ends in
`-before` is the run before a theorem was tightened; `theorems_tightened` names the new one. Edits without effect on any reachable state are marked in `note`.
