{"id": "C01", "title": "A point is stored in the cell that geometrically contains it, in each overlapping grid", "statement": "For every resolution r>0 and every point p in map coordinates, the distribution of overlapping grid c that a map selects for p is, in every dimension, the cell of a grid of edge r (shifted by r/2 in the dimensions whose bit of c is set) that contains p: its index is floor(p/r + bit/2).", "quantifier": "all dimensions, all points, all resolutions r>0, all 2^Dim grids", "why_tests_cant": "the claim ranges over a continuum of points, negative coordinates and both parities of the bundle index in every dimension", "anchors": ["cslibs_ndt/include/cslibs_ndt/map/abstract_map.hpp:toBundleIndex", "cslibs_ndt/include/cslibs_ndt/utility/binary_indices.hpp:generate_index", "cslibs_ndt/include/cslibs_ndt/utility/binary_indices.hpp:get_index_inner"]}
{"id": "C02", "title": "Every distribution is shared by exactly 2^Dim bundles", "statement": "For every grid c and every distribution index k the set of bundle indices whose bundle contains distribution (c,k) is exactly a 2x...x2 block: bit 0 gives {2k,2k+1}, bit 1 gives {2k-1,2k}; it has 2^Dim elements. Face-adjacent bundles always share 2^(Dim-1) distributions.", "quantifier": "all dimensions, grids c, indices k", "why_tests_cant": "infinitely many indices of either sign", "anchors": ["cslibs_ndt/include/cslibs_ndt/utility/binary_indices.hpp:generate_index", "cslibs_ndt/include/cslibs_ndt/map/abstract_map.hpp:getAllocate"]}
{"id": "C03", "title": "Compile-time index enumeration is exactly 0..N-1", "statement": "make_integer_sequence<T,N> is the sequence 0,1,...,N-1 for every N, apply_indices visits every bin exactly once in ascending order, and the variadic merge with bool_and/bool_or is universal/existential quantification over its arguments.", "quantifier": "all N and all argument lists", "why_tests_cant": "N is a template parameter: only finitely many instantiations can be compiled", "anchors": ["cslibs_ndt/include/cslibs_ndt/utility/integer_sequence.hpp:integer_sequence_maker", "cslibs_ndt/include/cslibs_ndt/utility/binary_indices.hpp:apply_indices", "cslibs_ndt/include/cslibs_ndt/utility/merge.hpp:merge"]}
{"id": "C04", "title": "Bundle-to-distribution index arithmetic is exact on machine integers", "statement": "For every 32-bit int bundle coordinate, the shift/mask computation of the distribution coordinate equals floor (bit 0) or ceiling (bit 1) division by two of the mathematical integer, and the addition never overflows.", "quantifier": "all 2^32 ints", "why_tests_cant": "2^32 values per dimension, both signs, including INT_MIN and INT_MAX", "anchors": ["cslibs_ndt/include/cslibs_ndt/utility/binary_indices.hpp:get_index_inner"]}
{"id": "C05", "title": "The octree storage is a finite map on its index range", "statement": "Starting from an empty octree, after any sequence of inserts of in-range indices (every coordinate in [-32768,32767]), get(i) returns the data of the insert that first created i (merged with later inserts at i) and null if i was never inserted.", "quantifier": "all dimensions, all insertion histories, all in-range indices", "why_tests_cant": "unbounded histories; tree paths of depth 16 over 2^Dim children", "anchors": ["cslibs_ndt/include/cslibs_ndt/backend/octree.hpp:insert", "cslibs_ndt/include/cslibs_ndt/backend/octree.hpp:get", "cslibs_ndt/include/cslibs_ndt/backend/octree.hpp:computeChildIdx"]}
{"id": "C06", "title": "The octree never confuses two different indices", "statement": "For every history, data stored under index i is never returned for, or merged with, a different index j.", "quantifier": "all histories over all int indices", "why_tests_cant": "aliasing only shows up for coordinates beyond +-2^15, which tests never reach", "anchors": ["cslibs_ndt/include/cslibs_ndt/backend/octree.hpp:computeChildIdx", "cslibs_ndt/include/cslibs_ndt/backend/octree.hpp:tree_depth_", "cslibs_ndt/include/cslibs_ndt/backend/octree.hpp:tree_max_val_"]}
{"id": "C07", "title": "Octree traversal visits every stored index exactly once, in an order independent of insertion order", "statement": "After any history of in-range inserts, traverse calls the function exactly once for every stored index, with that index and its current data, and for nothing else; the visiting order depends only on the set of stored indices.", "quantifier": "all insertion histories", "why_tests_cant": "all histories and orders", "anchors": ["cslibs_ndt/include/cslibs_ndt/backend/octree.hpp:traverse", "cslibs_ndt/include/cslibs_ndt/backend/octree.hpp:insert"]}
{"id": "C08", "title": "size() of an octree storage reports the number of stored elements", "statement": "After any history of inserts, size() equals the number of stored indices.", "quantifier": "all insertion histories", "why_tests_cant": "needs all histories; and the counter is read uninitialised", "anchors": ["cslibs_ndt/include/cslibs_ndt/backend/octree.hpp:size", "cslibs_ndt/include/cslibs_ndt/backend/octree.hpp:tree_size_", "cslibs_ndt/include/cslibs_ndt/backend/octree.hpp:insert"]}
{"id": "C09", "title": "Memory accounting of the octree is exact", "statement": "byte_size() equals sizeof(*this) plus, summed over the nodes that exist, the node size, the child-pointer array of every inner node and the index and data size of every leaf; the number of nodes never exceeds 1+16 times the number of stored indices.", "quantifier": "all insertion histories", "why_tests_cant": "all tree shapes", "anchors": ["cslibs_ndt/include/cslibs_ndt/backend/octree.hpp:byte_size", "cslibs_ndt/include/cslibs_ndt/backend/octree.hpp:insert"]}
{"id": "C10", "title": "Map contents after any history are exactly the inserted points of each cell", "statement": "For every history of insert, bundle lookups, bundle allocations and expansions on an NDT map, the distribution of grid c at index k contains exactly the multiset of inserted, accepted points whose cell in grid c is k.", "quantifier": "all histories of operations, all clouds, all poses", "why_tests_cant": "all histories and interleavings of allocation and insertion; sharing of distributions between bundles", "anchors": ["cslibs_ndt/include/cslibs_ndt/map/impl/gridmap.hpp:insert", "cslibs_ndt/include/cslibs_ndt/map/impl/gridmap.hpp:update", "cslibs_ndt/include/cslibs_ndt/map/abstract_map.hpp:getAllocate", "cslibs_ndt/include/cslibs_ndt/map/abstract_map.hpp:allocatePartiallyAllocatedBundles"]}
{"id": "C11", "title": "Every accepted point is counted exactly once in each overlapping grid", "statement": "For every history and every grid c, the sample counts of all distributions of grid c sum to the number of accepted points; every accepted point lies in exactly 2^Dim distributions.", "quantifier": "all histories", "why_tests_cant": "unbounded histories", "anchors": ["cslibs_ndt/include/cslibs_ndt/map/impl/gridmap.hpp:insert", "cslibs_ndt/include/cslibs_ndt/map/abstract_map.hpp:getAllocate"]}
{"id": "C12", "title": "Insertion is independent of point order and of batching", "statement": "Inserting any permutation of the points, or splitting a cloud into any number of successive insert calls, yields the same allocated bundles, the same bounds and the same contents of every distribution.", "quantifier": "all permutations and all splittings of all clouds", "why_tests_cant": "factorially many orders", "anchors": ["cslibs_ndt/include/cslibs_ndt/map/impl/gridmap.hpp:insert", "cslibs_ndt/include/cslibs_ndt/map/impl/gridmap.hpp:update"]}
{"id": "C13", "title": "Dynamic map bounds are the tight bounding box of the allocated bundles", "statement": "After any history on a dynamic map, getMinBundleIndex/getMaxBundleIndex are the componentwise minimum/maximum over all allocated bundles, empty() is true exactly when no bundle was allocated, and every accepted point lies in [getMin(), getMax()).", "quantifier": "all histories", "why_tests_cant": "all histories, all sign patterns", "anchors": ["cslibs_ndt/include/cslibs_ndt/map/generic_map.hpp:updateIndices", "cslibs_ndt/include/cslibs_ndt/map/generic_map.hpp:empty", "cslibs_ndt/include/cslibs_ndt/map/abstract_map.hpp:getMin", "cslibs_ndt/include/cslibs_ndt/map/abstract_map.hpp:getMax"]}
{"id": "C14", "title": "Lookups do not modify the map; allocation is idempotent and local", "statement": "get and sampling leave every observable of the map unchanged; getDistributionBundle(bi) makes bi allocated, changes no content and no other bundle, and a second call returns the same bundle and changes nothing.", "quantifier": "all reachable maps, all indices", "why_tests_cant": "all reachable states", "anchors": ["cslibs_ndt/include/cslibs_ndt/map/generic_map.hpp:get", "cslibs_ndt/include/cslibs_ndt/map/generic_map.hpp:getDistributionBundle", "cslibs_ndt/include/cslibs_ndt/map/abstract_map.hpp:getAllocate"]}
{"id": "C15", "title": "Every bundle of a map is complete and shares its distributions with the storages", "statement": "In every reachable map, each allocated bundle has 2^Dim non-null entries, entry c is the very object stored at the generated index in storage c, two bundles have the same object at entry c iff their generated indices agree, and no update dereferences a null entry.", "quantifier": "all reachable maps", "why_tests_cant": "aliasing structure over unbounded histories", "anchors": ["cslibs_ndt/include/cslibs_ndt/map/abstract_map.hpp:getAllocate", "cslibs_ndt/include/cslibs_ndt/common/bundle.hpp:Bundle"]}
{"id": "C16", "title": "Operations on a static map never access its arrays out of range", "statement": "For every size and every (odd or even, negative or positive) minimum index, every history of operations on a static map built by its constructor accesses the distribution and bundle arrays only inside their declared size/offset.", "quantifier": "all sizes, offsets, histories", "why_tests_cant": "off-by-one at the upper boundary depends on the parity of the minimum index", "anchors": ["cslibs_ndt/include/cslibs_ndt/map/generic_map.hpp:GenericMap (static)", "cslibs_ndt/include/cslibs_ndt/map/generic_map.hpp:valid", "cslibs_ndt/include/cslibs_ndt/map/abstract_map.hpp:getAllocate"]}
{"id": "C17", "title": "A static map accepts exactly the points between getMin() and getMax()", "statement": "A point with finite coordinates is accepted by a static map iff getMin() <= p < getMax() componentwise.", "quantifier": "all sizes, offsets, points", "why_tests_cant": "boundary rows", "anchors": ["cslibs_ndt/include/cslibs_ndt/map/generic_map.hpp:valid", "cslibs_ndt/include/cslibs_ndt/map/abstract_map.hpp:getMin", "cslibs_ndt/include/cslibs_ndt/map/abstract_map.hpp:getMax", "cslibs_ndt/include/cslibs_ndt/map/abstract_map.hpp:toBundleIndex"]}
{"id": "C18", "title": "Neighbourhood allocation changes no content and reaches a fixpoint", "statement": "allocatePartiallyAllocatedBundles changes no distribution content and never removes a bundle; it only adds valid 3^Dim-neighbours of bundles containing a valid distribution; after it every valid neighbour of every such formerly unexpanded bundle is allocated; without intervening insertions a third call adds nothing.", "quantifier": "all reachable maps", "why_tests_cant": "unbounded spatial configurations", "anchors": ["cslibs_ndt/include/cslibs_ndt/map/abstract_map.hpp:allocatePartiallyAllocatedBundle", "cslibs_ndt/include/cslibs_ndt/map/abstract_map.hpp:allocatePartiallyAllocatedBundles", "cslibs_ndt/include/cslibs_ndt/map/abstract_map.hpp:expandBundle"]}
{"id": "C19", "title": "Allocating neighbourhoods is idempotent", "statement": "Calling allocatePartiallyAllocatedBundles a second time without intervening insertions changes nothing.", "quantifier": "all reachable maps", "why_tests_cant": "depends on how newly allocated bundles share valid distributions", "anchors": ["cslibs_ndt/include/cslibs_ndt/map/abstract_map.hpp:allocatePartiallyAllocatedBundles"]}
{"id": "C20", "title": "A copied map is independent of the original", "statement": "After copy-constructing a map, no operation on the copy changes anything observable on the original and vice versa.", "quantifier": "all maps, all later histories on either object", "why_tests_cant": "aliasing between objects over later histories", "anchors": ["cslibs_ndt/include/cslibs_ndt/map/abstract_map.hpp:AbstractMap(const AbstractMap &)", "cslibs_ndt/include/cslibs_ndt/utility/create.hpp:create", "cslibs_ndt/include/cslibs_ndt/backend/octree.hpp:root_"]}
{"id": "C21", "title": "Occupancy of a distribution depends only on the counts and is monotone", "statement": "getOccupancy depends only on numFree and numOccupied (hence not on the order of updates), lies in (0,1) once a hit was recorded, is 0 before, increases with more hits when l_occ>l_prior and decreases with more free observations when l_free<l_prior.", "quantifier": "all update histories that do not merge an empty distribution, all inverse models", "why_tests_cant": "all histories and all real-valued models", "anchors": ["cslibs_ndt/include/cslibs_ndt/common/occupancy_distribution.hpp:getOccupancy", "cslibs_ndt/include/cslibs_ndt/common/occupancy_distribution.hpp:updateFree", "cslibs_ndt/include/cslibs_ndt/common/occupancy_distribution.hpp:updateOccupied"]}
{"id": "C22", "title": "A missing inverse model is always reported", "statement": "getOccupancy, sampleNonNormalized and sampleNonNormalizedBilinear on occupancy maps throw for a null inverse model whatever the map, point and index, and never return a value.", "quantifier": "all maps, points, indices", "why_tests_cant": "all states", "anchors": ["cslibs_ndt/include/cslibs_ndt/map/impl/occupancy_gridmap.hpp:sampleNonNormalized", "cslibs_ndt/include/cslibs_ndt/map/impl/occupancy_gridmap.hpp:sampleNonNormalizedBilinear", "cslibs_ndt/include/cslibs_ndt/common/occupancy_distribution.hpp:getOccupancy"]}
{"id": "C23", "title": "Copies of occupancy distributions are independent", "statement": "After copying or assigning a (weighted) occupancy distribution, or merging one into another, later updates of one object never change the other.", "quantifier": "all objects, all later update histories", "why_tests_cant": "aliasing through shared pointers over histories", "anchors": ["cslibs_ndt/include/cslibs_ndt/common/occupancy_distribution.hpp:merge", "cslibs_ndt/include/cslibs_ndt/common/weighted_occupancy_distribution.hpp:WeightedOccupancyDistribution(const WeightedOccupancyDistribution&)"]}
{"id": "C24", "title": "Sampling is an average of the overlapping distributions, bounded by one", "statement": "If every distribution's non-normalised density is in [0,1], sampleNonNormalized is the arithmetic mean of the 2^Dim bin values (times occupancy for occupancy maps), lies in [0,1], and is 0 for points outside a static map or in unallocated bundles.", "quantifier": "all maps and points", "why_tests_cant": "all states and points", "anchors": ["cslibs_ndt/include/cslibs_ndt/map/impl/gridmap.hpp:sampleNonNormalized", "cslibs_ndt/include/cslibs_ndt/map/impl/occupancy_gridmap.hpp:sampleNonNormalized", "cslibs_ndt/include/cslibs_ndt/map/impl/weighted_occupancy_gridmap.hpp:sampleNonNormalized"]}
{"id": "C25", "title": "Bilinear weights form a partition of unity", "statement": "For every bundle and every point inside it the 2^Dim interpolation weights are in [0,1] and sum to 1 in every dimension; therefore bilinear sampling lies between the minimum and the maximum of the bin values.", "quantifier": "all dimensions, indices, points in the bundle", "why_tests_cant": "continuum of points and every dimension", "anchors": ["cslibs_ndt/include/cslibs_ndt/utility/bilinear_interpolation.hpp:get_bilinear_interpolation_weights", "cslibs_ndt/include/cslibs_ndt/utility/bilinear_interpolation.hpp:to_bilinear_interpolation_weight"]}
{"id": "C26", "title": "Bilinear interpolation is continuous across bundle borders", "statement": "On the common face of two adjacent bundles both bundles give every shared distribution the same weight and every non-shared distribution weight 0, so the interpolated value agrees from both sides. Hence bilinear sampling is a continuous function of the point wherever the densities are continuous and all bundles touching the point are allocated, in particular on every bundle with data after allocatePartiallyAllocatedBundles.", "quantifier": "all dimensions, faces, edges, corners, parities, points, maps and histories, continuous densities", "why_tests_cant": "continuum of boundary points, both parities; continuity is not observable at finitely many points", "anchors": ["cslibs_ndt/include/cslibs_ndt/utility/bilinear_interpolation.hpp:get_bilinear_interpolation_weights", "cslibs_ndt/include/cslibs_ndt/utility/binary_indices.hpp:generate_index"]}
{"id": "C27", "title": "Occupancy insertion accounts hits and misses exactly", "statement": "After any history of insert calls on an occupancy map, numOccupied of distribution (c,k) is the number of accepted points in its cell and numFree is the sum, over all insert calls and all rays, of the number of points of that ray times the number of ray cells that lie in the cell; neither depends on the iteration order of the hash map.", "quantifier": "all histories, all ray tracers, all hash orders", "why_tests_cant": "all histories and all hash iteration orders", "anchors": ["cslibs_ndt/include/cslibs_ndt/map/impl/occupancy_gridmap.hpp:insert", "cslibs_ndt/include/cslibs_ndt/map/impl/occupancy_gridmap.hpp:updateFree", "cslibs_ndt/include/cslibs_ndt/map/impl/occupancy_gridmap.hpp:updateOccupied"]}
{"id": "C28", "title": "A bundle hit by a scan is not marked free by the same scan", "statement": "In one insert call on a (weighted) occupancy map, a bundle that receives a hit receives no free update.", "quantifier": "all scans", "why_tests_cant": "depends on rays crossing other hit cells", "anchors": ["cslibs_ndt/include/cslibs_ndt/map/impl/occupancy_gridmap.hpp:insert", "cslibs_ndt/include/cslibs_ndt/map/impl/weighted_occupancy_gridmap.hpp:insert"]}
{"id": "C29", "title": "Visibility-aware insertion processes every ray independently", "statement": "insertVisible applies the free updates of every unoccluded ray and the hit of every visible end point, regardless of whether other rays of the same scan are occluded.", "quantifier": "all scans, maps and models", "why_tests_cant": "depends on the joint configuration of rays", "anchors": ["cslibs_ndt/include/cslibs_ndt/map/impl/occupancy_gridmap.hpp:insertVisible", "cslibs_ndt/include/cslibs_ndt/map/impl/weighted_occupancy_gridmap.hpp:insertVisible"]}
{"id": "C30", "title": "Visibility-aware insertion degrades to plain insertion without models", "statement": "insertVisible with a null inverse model or a null visibility model has exactly the effect of insert.", "quantifier": "all scans and maps", "why_tests_cant": "all states", "anchors": ["cslibs_ndt/include/cslibs_ndt/map/impl/occupancy_gridmap.hpp:insertVisible", "cslibs_ndt/include/cslibs_ndt/map/impl/weighted_occupancy_gridmap.hpp:insertVisible"]}
{"id": "C31", "title": "Saving and loading a dynamic map is lossless", "statement": "For every reachable dynamic NDT or occupancy map with at least one allocated bundle, load after save yields a map with the same origin, resolution, bounds, allocated bundles and contents of every distribution, for every interleaving of the loader threads.", "quantifier": "all reachable non-empty maps, all thread schedules, all previous contents of the target directory", "why_tests_cant": "unbounded contents and all schedules", "anchors": ["cslibs_ndt/include/cslibs_ndt/serialization/map.hpp:save", "cslibs_ndt/include/cslibs_ndt/serialization/map.hpp:load", "cslibs_ndt/include/cslibs_ndt/serialization/storage.hpp:save", "cslibs_ndt/include/cslibs_ndt/serialization/storage.hpp:loadStorage", "cslibs_ndt/include/cslibs_ndt/serialization/loader.hpp:header"]}
{"id": "C32", "title": "Saving and loading a weighted occupancy map is lossless", "statement": "For every weighted occupancy storage, loading the saved file restores every record.", "quantifier": "all storages", "why_tests_cant": "loss depends on the number of records", "anchors": ["cslibs_ndt/include/cslibs_ndt/serialization/storage.hpp:read(WeightedOccupancyDistribution)", "cslibs_ndt/include/cslibs_ndt/serialization/storage.hpp:loadStorage"]}
{"id": "C33", "title": "Saving and loading a static map is lossless", "statement": "For every reachable static map, load after save restores size, minimum index, bundles and contents without any out-of-range array access.", "quantifier": "all sizes, parities and contents", "why_tests_cant": "depends on the parity of the minimum index", "anchors": ["cslibs_ndt/include/cslibs_ndt/serialization/loader.hpp:loader<static_map>::load", "cslibs_ndt/include/cslibs_ndt/serialization/loader.hpp:header<static_map>"]}
{"id": "C34", "title": "Damaged files are rejected by load", "statement": "load returns false for a directory in which any file is missing, truncated or has trailing garbage.", "quantifier": "all byte strings", "why_tests_cant": "all truncation points", "anchors": ["cslibs_ndt/include/cslibs_ndt/serialization/storage.hpp:loadStorage", "cslibs_ndt/include/cslibs_ndt/serialization/loader.hpp:header::load", "cslibs_ndt/include/cslibs_ndt/serialization/map.hpp:load"]}
{"id": "C35", "title": "save and load report failure iff some storage failed", "statement": "For every schedule of the worker threads, save (load) returns true iff all 2^Dim storages were written (read) successfully.", "quantifier": "all thread interleavings, all subsets of failing storages", "why_tests_cant": "non-deterministic schedules", "anchors": ["cslibs_ndt/include/cslibs_ndt/serialization/map.hpp:save", "cslibs_ndt/include/cslibs_ndt/serialization/map.hpp:load"]}
{"id": "C36", "title": "A crash during save never destroys the only copy of a map", "statement": "At every crash point of save over an existing map directory, load restores either the complete old or the complete new map.", "quantifier": "all crash points", "why_tests_cant": "crash points", "anchors": ["cslibs_ndt/include/cslibs_ndt/serialization/map.hpp:save", "cslibs_ndt/include/cslibs_ndt/serialization/filesystem.hpp:create_directory"]}
{"id": "C37", "title": "A crash during save never yields a wrong map", "statement": "At every crash point of save, a subsequent load either fails or returns the complete old or new map.", "quantifier": "all crash points including partially written files", "why_tests_cant": "crash points and partial writes", "anchors": ["cslibs_ndt/include/cslibs_ndt/serialization/map.hpp:save", "cslibs_ndt/include/cslibs_ndt/serialization/map.hpp:load", "cslibs_ndt/include/cslibs_ndt/serialization/storage.hpp:loadStorage"]}
{"id": "C38", "title": "Converting a dynamic map to a static map preserves everything", "statement": "For every non-empty dynamic map, the converted static map has every source bundle allocated and inside its valid range, with equal contents, and no array access is out of range.", "quantifier": "all reachable dynamic maps", "why_tests_cant": "sign and parity of the bounds", "anchors": ["cslibs_ndt/include/cslibs_ndt/conversion/map.hpp:convert<static_map>"]}
{"id": "C39", "title": "Converting a static map to a dynamic map preserves everything; the round trip is the identity on contents", "statement": "For every map, conversion to a dynamic map allocates exactly the source bundles with equal contents; dynamic->static->dynamic is the identity on bundles, bounds and contents.", "quantifier": "all reachable maps", "why_tests_cant": "all configurations", "anchors": ["cslibs_ndt/include/cslibs_ndt/conversion/map.hpp:convert<dynamic_map>"]}
{"id": "C40", "title": "The single-resolution 2D map never accesses its array out of range", "statement": "Every index accepted by validate/toIndex of the mono grid map lies inside its array.", "quantifier": "all sizes, offsets, points", "why_tests_cant": "upper boundary", "anchors": ["cslibs_ndt_2d/include/cslibs_ndt_2d/static_maps/mono_gridmap.hpp:toIndex", "cslibs_ndt_2d/include/cslibs_ndt_2d/static_maps/mono_gridmap.hpp:validate"]}
{"id": "C41", "title": "Merging the overlapping grids is a 1-2-1 smoothing", "statement": "The merged single-grid map at bundle b holds every inserted point of bundle b+o with multiplicity prod_i(2-|o_i|), in both parities; the total mass is between 2^Dim and 4^Dim times the number of inserted points, and is 4^Dim times that number exactly when every neighbour of a bundle containing a point is allocated.", "quantifier": "all maps", "why_tests_cant": "both parities in every dimension", "anchors": ["cslibs_ndt_2d/include/cslibs_ndt_2d/conversion/merge.hpp:from", "cslibs_ndt/include/cslibs_ndt/utility/binary_indices.hpp:generate_index"]}
{"id": "C42", "title": "Rasterisation writes only inside the target and each cell at most once, with the right sample position", "statement": "Converting a map to a grid with sampling resolution s writes only cells inside the target, writes no cell twice, and when s divides the bundle resolution writes every cell of every allocated bundle with the value sampled at that cell's corner.", "quantifier": "all bounds, resolutions and bundle sets", "why_tests_cant": "all ratios of resolutions and all bounds", "anchors": ["cslibs_ndt_2d/include/cslibs_ndt_2d/conversion/probability_gridmap.hpp:from", "cslibs_ndt_2d/include/cslibs_ndt_2d/conversion/likelihood_field_gridmap.hpp:from"]}
{"id": "C43", "title": "Rasterised probabilities are probabilities", "statement": "Every cell written by the probability grid conversion is in [0,1] when the sampled values are non-negative or NaN/infinite.", "quantifier": "all sampled values including NaN, infinities, subnormals", "why_tests_cant": "all floating-point values", "anchors": ["cslibs_ndt_2d/include/cslibs_ndt_2d/conversion/probability_gridmap.hpp:validate"]}
{"id": "C44", "title": "Angle differences in the rotation priors are wrapped correctly", "statement": "AngleDifference(a,b) is congruent to a-b modulo 2 pi and has absolute value at most pi, is 0 iff a and b are the same rotation, for all angles in (-pi,pi] (the range of the normalised arguments).", "quantifier": "all pairs of angles", "why_tests_cant": "continuum", "anchors": ["cslibs_ndt/include/cslibs_ndt/matching/ceres/rotation/rotation_cost_functor_2d.hpp:AngleDifference", "cslibs_ndt/include/cslibs_ndt/matching/ceres/rotation/rotation_cost_functor_3d_rpy.hpp:AngleDifference"]}
{"id": "C45", "title": "Parameter updates stay in the parameter domain and are identities for zero updates", "statement": "Euler updates keep every angle in [-pi,pi] and leave angles of that range unchanged for a zero step; quaternion yaw updates preserve the norm, compose additively in the step and are the identity for a zero step.", "quantifier": "all parameters and steps", "why_tests_cant": "continuum", "anchors": ["cslibs_ndt/include/cslibs_ndt/matching/ceres/local_parameterization.hpp"]}
{"id": "C46", "title": "The rotation prior vanishes exactly at the prior rotation", "statement": "The 3D quaternion rotation residual is zero iff the rotation equals the prior rotation and its cost increases with the rotation error.", "quantifier": "all unit quaternions", "why_tests_cant": "continuum of rotations", "anchors": ["cslibs_ndt/include/cslibs_ndt/matching/ceres/rotation/rotation_cost_functor_3d_quaternion.hpp"]}
{"id": "C47", "title": "Scan-match residuals are never NaN", "statement": "Whatever values the map evaluation yields, the residuals passed to the optimiser are never NaN.", "quantifier": "all floating-point values", "why_tests_cant": "all NaN-producing inputs", "anchors": ["cslibs_ndt/include/cslibs_ndt/matching/ceres/map/scan_match_cost_functor_2d.hpp", "cslibs_ndt/include/cslibs_ndt/matching/ceres/map/scan_match_cost_functor_3d_quaternion.hpp"]}
{"id": "C48", "title": "The reported map score is the mean score of the points", "statement": "For every state and scan, mapScore applied to the optimiser's function value returns the mean over the points of the (sanitised) sampled score, independent of the weights.", "quantifier": "all scans, poses and non-zero weights", "why_tests_cant": "continuum", "anchors": ["cslibs_ndt_2d/include/cslibs_ndt_2d/matching/nlopt/gridmap_function.hpp", "cslibs_ndt_2d/include/cslibs_ndt_2d/matching/alglib/gridmap_function.hpp", "cslibs_ndt_2d/include/cslibs_ndt_2d/matching/nlopt/occupancy_gridmap_function.hpp", "cslibs_ndt_3d/include/cslibs_ndt_3d/matching/nlopt/gridmap_function.hpp"]}
{"id": "C49", "title": "Moving points off the map never improves the matching cost", "statement": "For every scan, a point that samples to 0 or to a non-finite value contributes at least as much cost as a point with a positive score.", "quantifier": "all scans and scores", "why_tests_cant": "all combinations", "anchors": ["cslibs_ndt_2d/include/cslibs_ndt_2d/matching/nlopt/occupancy_gridmap_function.hpp", "cslibs_ndt_3d/include/cslibs_ndt_3d/matching/nlopt/occupancy_gridmap_function.hpp", "cslibs_ndt_2d/include/cslibs_ndt_2d/matching/nlopt/gridmap_function.hpp"]}
{"id": "C50", "title": "Box queries on the index container are exact", "statement": "After any sequence of inserts, find_between(a,b) returns exactly the inserted indices in the axis-aligned box spanned by a and b, each once, in lexicographic order, for any orientation of the corners; find is membership.", "quantifier": "all dimensions, histories, corner pairs", "why_tests_cant": "all histories and corner orders", "anchors": ["cslibs_ndt/include/cslibs_ndt/map/impl/utility.hpp:Map::find_between", "cslibs_ndt/include/cslibs_ndt/map/impl/utility.hpp:Map::insert"]}
{"id": "C51", "title": "A dynamic map stays within its index range as long as the mapped area does", "statement": "Every history on a dynamic map whose insertions and lookups concern bundle indices with coordinates in [-n,n], and that contains e neighbourhood allocation calls, is free of index aliasing whenever n+e <= 32767: no storage is ever accessed outside of the range in which indices are distinguished.", "quantifier": "all histories, all n and e with n+e <= 32767", "why_tests_cant": "all histories of arbitrary length", "anchors": ["cslibs_ndt/include/cslibs_ndt/backend/octree.hpp:OcTree::insert", "cslibs_ndt/include/cslibs_ndt/map/abstract_map.hpp:allocatePartiallyAllocatedBundles", "cslibs_ndt/include/cslibs_ndt/map/generic_map.hpp"]}
{"id": "C52", "title": "An empty dynamic map can be saved and loaded", "statement": "For a dynamic map into which nothing was inserted, save is well defined and load restores an empty map.", "quantifier": "the empty map, all schedules", "why_tests_cant": "undefined arithmetic is invisible to a test", "anchors": ["cslibs_ndt/include/cslibs_ndt/serialization/loader.hpp:header", "cslibs_ndt/include/cslibs_ndt/serialization/map.hpp:save"]}
{"id": "C53", "title": "An empty dynamic map can be converted", "statement": "For a dynamic map into which nothing was inserted, the conversions to a static map, to a dynamic map, to a single-resolution map and to a grid are well defined and yield an empty map.", "quantifier": "the empty map in every dimension", "why_tests_cant": "undefined arithmetic is invisible to a test", "anchors": ["cslibs_ndt/include/cslibs_ndt/conversion/map.hpp:convert<static_map>", "cslibs_ndt/include/cslibs_ndt/conversion/map.hpp:convert<dynamic_map>"]}
{"id": "C54", "title": "The single-resolution map holds exactly the inserted points", "statement": "After any insertions of points inside its area, every cell of the single-resolution map holds exactly the inserted points that lie in the cell, in world coordinates, each once, and every inserted point is held by exactly one cell.", "quantifier": "all sizes, offsets, transforms and insertion sequences", "why_tests_cant": "all sequences", "anchors": ["cslibs_ndt_2d/include/cslibs_ndt_2d/static_maps/mono_gridmap.hpp:insert", "cslibs_ndt_2d/include/cslibs_ndt_2d/static_maps/mono_gridmap.hpp:toIndex"]}
{"id": "C55", "title": "Sampling a merged map evaluates the merged distribution of the bundle of the point", "statement": "Sampling the single-resolution map obtained by merging, at a world point, evaluates the merged distribution of the bundle containing the point in the frame in which its points are stored.", "quantifier": "all reachable maps, transforms and points", "why_tests_cant": "all transforms", "anchors": ["cslibs_ndt_2d/include/cslibs_ndt_2d/conversion/merge.hpp:from", "cslibs_ndt_2d/include/cslibs_ndt_2d/static_maps/mono_gridmap.hpp:sampleNonNormalized"]}
{"id": "C56", "title": "Every written raster cell holds the value of the map at that cell, for every sampling resolution", "statement": "For every sampling resolution, also one that does not divide the bundle resolution, every cell written by a conversion to a grid holds the value of sampling the map at the position of the cell.", "quantifier": "all maps and sampling resolutions", "why_tests_cant": "all ratios of resolutions", "anchors": ["cslibs_ndt_2d/include/cslibs_ndt_2d/conversion/probability_gridmap.hpp:from"]}
{"id": "C57", "title": "Raster cells are reported at the place in the world where they were sampled", "statement": "For every map and every origin, the world position of each cell of a converted grid (the reported origin applied to the cell's position) is the image of the map position at which the cell was sampled.", "quantifier": "all maps, origins including rotated ones, and cells", "why_tests_cant": "all rotations", "anchors": ["cslibs_ndt/include/cslibs_ndt/map/abstract_map.hpp:getOrigin", "cslibs_ndt_2d/include/cslibs_ndt_2d/conversion/probability_gridmap.hpp:from"]}
{"id": "C58", "title": "A binary grid is the thresholded map", "statement": "When the sampling resolution divides the bundle resolution, a cell of the converted binary grid is occupied exactly when its corner is in an allocated bundle and the sampled value there is at least the threshold.", "quantifier": "all maps, thresholds and resolutions", "why_tests_cant": "all configurations", "anchors": ["cslibs_ndt_2d/include/cslibs_ndt_2d/conversion/binary_gridmap.hpp:from"]}
{"id": "C59", "title": "Likelihood fields are likelihoods", "statement": "For every non-empty map, resolution, distance transform and non-zero sigma, the likelihood field is defined with the size of the probability grid, all values are in (0,1], are 1 exactly at distance 0 and strictly decrease with the distance.", "quantifier": "all maps, distances and sigmas", "why_tests_cant": "continuum", "anchors": ["cslibs_ndt_2d/include/cslibs_ndt_2d/conversion/likelihood_field_gridmap.hpp:from"]}
{"id": "C60", "title": "An Euler step reaches the requested rotation", "statement": "For all Euler angles and all steps, the updated angles describe the rotations given by the sums of the old angles and the steps.", "quantifier": "all angles and steps", "why_tests_cant": "continuum", "anchors": ["cslibs_ndt/include/cslibs_ndt/matching/ceres/local_parameterization.hpp:EulerPlus", "cslibs_ndt/include/cslibs_ndt/matching/ceres/local_parameterization.hpp:YawOnlyEulerPlus"]}
{"id": "C61", "title": "Yaw-only updates leave roll and pitch alone", "statement": "A yaw-only update, with Euler angles or with a quaternion of any norm, does not change the height of any transformed scan point.", "quantifier": "all rotations, steps and points", "why_tests_cant": "continuum", "anchors": ["cslibs_ndt/include/cslibs_ndt/matching/ceres/local_parameterization.hpp:YawOnlyQuaternionPlus", "cslibs_ndt/include/cslibs_ndt/matching/ceres/local_parameterization.hpp:YawOnlyEulerPlus"]}
{"id": "C62", "title": "Automatic and numeric differentiation evaluate the same function", "statement": "For every map state and point, the value that the scan match functor computes for automatic differentiation equals the one it computes for numeric differentiation (direct evaluation, NDT and occupancy maps with an inverse model).", "quantifier": "all map states and points", "why_tests_cant": "all states", "anchors": ["cslibs_ndt_2d/include/cslibs_ndt_2d/matching/ceres/map/gridmap_cost_functor.hpp:Evaluate", "cslibs_ndt_2d/include/cslibs_ndt_2d/matching/ceres/map/occupancy_gridmap_cost_functor.hpp:Evaluate", "cslibs_ndt_3d/include/cslibs_ndt_3d/matching/ceres/map/gridmap_cost_functor.hpp:Evaluate", "cslibs_ndt_3d/include/cslibs_ndt_3d/matching/ceres/map/occupancy_gridmap_cost_functor.hpp:Evaluate"]}
{"id": "C63", "title": "Scan points are moved rigidly by the rotation that the parameters denote", "statement": "Roll, pitch and yaw denote the rotation about x, then y, then z; the quaternion built from them is a unit quaternion; and the 2D, RPY and (unit) quaternion transformations preserve all distances between scan points.", "quantifier": "all parameters and points", "why_tests_cant": "continuum", "anchors": ["cslibs_ndt/include/cslibs_ndt/matching/ceres/map/scan_match_cost_functor_2d.hpp", "cslibs_ndt/include/cslibs_ndt/matching/ceres/map/scan_match_cost_functor_3d_rpy.hpp:toEigen", "cslibs_ndt/include/cslibs_ndt/matching/ceres/map/scan_match_cost_functor_3d_quaternion.hpp"]}
{"id": "C64", "title": "The scan cost is a mean over the points", "statement": "The sum of the squared scan residuals is the squared weight times the mean of the squared map values, for every number of points, and does not depend on the order of the points.", "quantifier": "all scans and maps", "why_tests_cant": "all scan sizes and orders", "anchors": ["cslibs_ndt/include/cslibs_ndt/matching/ceres/map/scan_match_cost_functor_creator.hpp", "cslibs_ndt/include/cslibs_ndt/matching/ceres/map/scan_match_cost_functor_2d.hpp"]}
{"id": "C65", "title": "The priors of the cost functions vanish exactly at the initial guess", "statement": "For positive weights, the prior terms (or prior residuals) of the cost functions are zero exactly if translation and rotation are those of the initial guess, and positive elsewhere; the translation prior is scaled with the translation weight, the rotation prior with the rotation weight.", "quantifier": "all poses, guesses and weights", "why_tests_cant": "continuum", "anchors": ["cslibs_ndt_2d/include/cslibs_ndt_2d/matching/nlopt/gridmap_function.hpp", "cslibs_ndt_2d/include/cslibs_ndt_2d/matching/nlopt/occupancy_gridmap_function.hpp", "cslibs_ndt_3d/include/cslibs_ndt_3d/matching/nlopt/gridmap_function.hpp:applyQuaternion", "cslibs_ndt_2d/include/cslibs_ndt_2d/matching/alglib/gridmap_function.hpp", "cslibs_ndt_3d/include/cslibs_ndt_3d/matching/alglib/gridmap_function.hpp:applyQuaternion"]}
{"id": "C66", "title": "A line query on the index container finds the inserted indices along the segment", "statement": "After any sequence of inserts, get_between(first,last) returns every inserted index that lies within distance 1 of the segment from first to last (and in the box spanned by the two), with its parameter along the segment.", "quantifier": "all dimensions, histories and segments", "why_tests_cant": "all histories and segments", "anchors": ["cslibs_ndt/include/cslibs_ndt/map/impl/utility.hpp:Container::get_between"]}
{"id": "C67", "title": "Only what lies between the sensor and a hit can occlude it", "statement": "Whether insertVisible counts the hits of a scan is decided by the map content between the sensor and the hit: two maps that agree on all bundles of the box spanned by the bundle of the sensor and the bundle of the hit either both count the hit or both do not.", "quantifier": "all pairs of map histories, scans and visibility models", "why_tests_cant": "all pairs of histories", "anchors": ["cslibs_ndt/include/cslibs_ndt/map/impl/occupancy_gridmap.hpp:insertVisible", "cslibs_ndt/include/cslibs_ndt/map/impl/weighted_occupancy_gridmap.hpp:insertVisible"]}
{"id": "C68", "title": "A restored map behaves like the original under every later history", "statement": "Maps with the same bundles, contents and bounds cannot be told apart by later operations: for every later history of insertions (plain or visibility-based), lookups and expansions both leave the contract or both do not, end in the same bundles, contents and bounds, and give the same samples. In particular this holds for a saved map (dynamic or static) and the loaded one, and for a dynamic map and the result of converting it to a static map and back, although the expand flags of the bundles are not preserved.", "quantifier": "all pairs of map histories with equal visible state, all later histories", "why_tests_cant": "pairs of unbounded histories", "anchors": ["cslibs_ndt/include/cslibs_ndt/map/abstract_map.hpp:allocatePartiallyAllocatedBundles", "cslibs_ndt/include/cslibs_ndt/serialization/loader.hpp", "cslibs_ndt/include/cslibs_ndt/map/generic_map.hpp:insert", "cslibs_ndt/include/cslibs_ndt/map/impl/occupancy_gridmap.hpp:insertVisible", "cslibs_ndt_2d/include/cslibs_ndt_2d/conversion/gridmap.hpp:from"]}
{"id": "C69", "title": "The exported point cloud shows every distribution with data exactly once, inside of its cell", "statement": "The point cloud exported from a 3D map contains exactly one point for every distribution that received points (for occupancy maps: whose occupancy is not below the threshold), namely the transformed mean of these points, which lies in the cell of the distribution; allocating all neighbours before the export does not change the cloud.", "quantifier": "all 3D maps, histories, transformations and thresholds", "why_tests_cant": "all histories", "anchors": ["cslibs_ndt_3d/include/cslibs_ndt_3d/conversion/sensor_msgs_pointcloud2.hpp:from", "cslibs_ndt/include/cslibs_ndt/map/abstract_map.hpp:allocatePartiallyAllocatedBundles"]}
{"id": "C70", "title": "The exported point cloud message can be read back", "statement": "A point cloud message with n points announces n points in one row, its strides, data length and field descriptions are consistent, and a receiver that uses the field descriptions reads exactly the exported coordinates and intensities.", "quantifier": "all lists of points", "why_tests_cant": "all sizes", "anchors": ["cslibs_ndt_3d/include/cslibs_ndt_3d/conversion/sensor_msgs_pointcloud2.hpp:from"]}
{"id": "C71", "title": "The exported markers show every distribution exactly once", "statement": "The marker conversion keeps the markers already in the array, deletes all earlier displays with one marker and appends exactly one marker per distribution that is shown; their ids are distinct; no marker depends on the markers before it; the extents are never NaN and never below 1e-4, whatever the eigenvalues.", "quantifier": "all 2D and 3D maps, histories, decompositions", "why_tests_cant": "all histories and eigenvalues", "anchors": ["cslibs_ndt_2d/include/cslibs_ndt_2d/conversion/distributions.hpp:from", "cslibs_ndt_3d/include/cslibs_ndt_3d/conversion/distributions.hpp:from"]}
{"id": "C72", "title": "The reported sizes agree with the reported corners", "statement": "For every map, getSizeM() is the extent from getMin() to getMax() in every dimension, getWidth() and getHeight() are its first two components, and getSize() cells cover that extent.", "quantifier": "all kinds of maps and histories", "why_tests_cant": "all histories", "anchors": ["cslibs_ndt/include/cslibs_ndt/map/abstract_map.hpp:getWidth", "cslibs_ndt/include/cslibs_ndt/map/abstract_map.hpp:getHeight", "cslibs_ndt/include/cslibs_ndt/map/generic_map.hpp:getSizeM", "cslibs_ndt/include/cslibs_ndt/map/generic_map.hpp:getSize"]}
{"id": "C73", "title": "validate predicts whether a point is recorded", "statement": "For every map and 2D pose, validate(pose) is true iff inserting a point at the translation of the pose changes the map; if it is false, lookups and samples at that point give nothing and 0.", "quantifier": "all maps, histories and poses", "why_tests_cant": "all histories and a continuum", "anchors": ["cslibs_ndt/include/cslibs_ndt/map/abstract_map.hpp:validate", "cslibs_ndt/include/cslibs_ndt/utility/to_point.hpp:to_point"]}
{"id": "C74", "title": "Solving for yaw only keeps the scan level", "statement": "Whatever steps the solver takes on a problem built with only_yaw, the final pose differs from the initial guess by a motion in the horizontal plane: height, roll and pitch of the scan do not change. With or without only_yaw, the scan is moved as a rigid body by every sequence of steps.", "quantifier": "all weights, scans, maps, initial guesses and step sequences", "why_tests_cant": "unbounded step sequences", "anchors": ["cslibs_ndt/include/cslibs_ndt/matching/ceres/problem.hpp:Problem2d", "cslibs_ndt/include/cslibs_ndt/matching/ceres/problem.hpp:Problem3dQuaternion", "cslibs_ndt/include/cslibs_ndt/matching/ceres/problem.hpp:Problem3dRPY"]}
{"id": "C75", "title": "The cost of a matching problem is the weighted sum of its terms", "statement": "The cost of a ceres problem is half of the squared map weight times the mean squared map value, plus squared translation weight times squared distance to the prior translation, plus squared rotation weight times the squared angle to the prior rotation; a term with weight 0 contributes nothing, even if its values are NaN; with the priors only, the cost is 0 exactly at the prior.", "quantifier": "all weights, priors, poses, scans and maps", "why_tests_cant": "continuum", "anchors": ["cslibs_ndt/include/cslibs_ndt/matching/ceres/problem.hpp:Problem2d", "cslibs_ndt/include/cslibs_ndt/matching/ceres/problem.hpp:Problem3dQuaternion", "cslibs_ndt/include/cslibs_ndt/matching/ceres/problem.hpp:Problem3dRPY"]}
{"id": "C76", "title": "const functions may be called concurrently", "statement": "Any number of threads may call const functions of the same map (getDistributionBundle, get, getBundleIndices, bounds, sampling) at the same time: there is no data race, and every call returns what it returns on a map that nobody else uses.", "quantifier": "all maps, all numbers of threads, all programs of const calls, all interleavings of their steps", "why_tests_cant": "Whether a race shows up depends on the schedule; a test sees a few schedules, and with a sanitizer only the races of the executions it runs.", "anchors": ["cslibs_ndt/include/cslibs_ndt/map/abstract_map.hpp:getAllocate", "cslibs_ndt/include/cslibs_ndt/map/abstract_map.hpp:bundle_storage_", "cslibs_ndt/include/cslibs_ndt/map/generic_map.hpp:getDistributionBundle", "cslibs_ndt/include/cslibs_ndt/map/generic_map.hpp:updateIndices", "cslibs_ndt/include/cslibs_ndt/map/impl/gridmap.hpp:sampleNonNormalized"]}
{"id": "C77", "title": "Floating-point quantisation records every point exactly where it lies", "statement": "On a map with float or double coordinates every inserted point that the map accepts is stored in exactly one distribution of each of the overlapping grids, and the cell of that distribution contains the point; the map accepts exactly the points in its region; a later lookup at the place of the point finds the bundle with these distributions; larger coordinates never get smaller indices.", "quantifier": "all scalar types with IEEE rounding, all resolutions, maps, histories and points", "why_tests_cant": "The floats next to cell borders depend on the resolution; a test picks a few of them.", "anchors": ["cslibs_ndt/include/cslibs_ndt/map/abstract_map.hpp:toBundleIndex", "cslibs_ndt/include/cslibs_ndt/map/abstract_map.hpp:bundle_resolution_inv_", "cslibs_ndt/include/cslibs_ndt/map/generic_map.hpp:insert", "cslibs_ndt/include/cslibs_ndt/map/generic_map.hpp:get"]}
{"id": "C78", "title": "Floating-point rasters have one cell per sampling step", "statement": "Converting a 2D map with float or double coordinates to a raster never writes outside of the raster; if the given sampling resolution divides the edge of a bundle n times, every bundle covers n by n cells, and every cell holds the value of the map at the place of that cell.", "quantifier": "all scalar types with IEEE rounding, all maps, resolutions, sampling resolutions and sampled functions", "why_tests_cant": "Whether a quotient of two rounded decimals falls below an integer depends on both numbers; a test picks a few pairs.", "anchors": ["cslibs_ndt_2d/include/cslibs_ndt_2d/conversion/probability_gridmap.hpp:chunk_step", "cslibs_ndt_2d/include/cslibs_ndt_2d/conversion/likelihood_field_gridmap.hpp:chunk_step", "cslibs_ndt_2d/include/cslibs_ndt_2d/conversion/distance_gridmap.hpp:chunk_step", "cslibs_ndt_2d/include/cslibs_ndt_2d/conversion/binary_gridmap.hpp:chunk_step", "cslibs_ndt/include/cslibs_ndt/map/abstract_map.hpp:getWidth", "cslibs_ndt/include/cslibs_ndt/map/abstract_map.hpp:getHeight"]}
{"id": "C79", "title": "The map loader publishes the configured maps, whatever their scalar type", "statement": "The map loader nodes publish, on start and on every request, the messages of exactly the maps whose paths are configured, whether these were saved as maps of floats or of doubles; if a map cannot be loaded, the node reports the failure and shuts down.", "quantifier": "all combinations of configured paths, all results of loading with either scalar type, all saved maps, all interleavings of saving and loading", "why_tests_cant": "Whether the reading of one format as the other is noticed depends on the contents and the sizes of all files of a saved map.", "anchors": ["cslibs_ndt_2d/src/ndt_map_loader.h:setup", "cslibs_ndt_2d/src/ndt_map_loader.h:run", "cslibs_ndt_2d/src/ndt_map_loader.h:resend", "cslibs_ndt_3d/src/ndt_map_loader.h:setup", "cslibs_ndt_3d/src/ndt_map_loader.h:resend", "cslibs_ndt_2d/include/cslibs_ndt_2d/serialization/dynamic_maps/gridmap.hpp:loadBinary"]}
{"id": "C80", "title": "The coloured point cloud shows the same points, coloured by height", "statement": "Exporting a 3D map as a coloured point cloud yields the same points as the export without colours, i.e. one point for every distribution with data (of occupancy maps: whose occupancy is not below the threshold), and the colour of a point depends only on its height between the lowest and the highest of these points.", "quantifier": "all 3D maps and histories, transformations, thresholds, colour scales, with and without allocation of all neighbours", "why_tests_cant": "The limits of the colour scale depend on all points of the map.", "anchors": ["cslibs_ndt_3d/include/cslibs_ndt_3d/conversion/sensor_msgs_pointcloud2_rgb.hpp:rgbFrom", "cslibs_ndt_3d/include/cslibs_ndt_3d/conversion/sensor_msgs_pointcloud2_rgb.hpp:ColorTransform", "cslibs_ndt_3d/include/cslibs_ndt_3d/conversion/sensor_msgs_pointcloud2.hpp:from"]}
{"id": "C81", "title": "A directory is loaded from its own files, whatever its header format and the path given", "statement": "After save() to a directory, over any previous contents of it (including an old YAML header), load() of that directory under any path returns the saved map. A directory with a YAML header map.yaml (the format that header::write produces) instead of map.bin is loaded to the same map, also if that map is empty.", "quantifier": "all reachable dynamic maps, contents of the directory before, paths (absolute or relative, with . and ..), working directories, both definitions of operator/ of Boost.Filesystem, YAML parsers that invert the emitter, schedules of the threads", "why_tests_cant": "the error shows only for some paths and some versions of the library: tests run in one directory", "anchors": ["cslibs_ndt/include/cslibs_ndt/serialization/map.hpp: save, load", "cslibs_ndt/include/cslibs_ndt/serialization/loader.hpp: header::write, header::load", "cslibs_ndt/include/cslibs_ndt/serialization/filesystem.hpp: create_directory, check_directory, check_file_quiet"]}
{"id": "C82", "title": "The saved files depend only on the contents of the map", "statement": "Two maps of the same type with the same origin, resolution, bounds, bundles and contents are saved to byte-identical directories, however the maps came about (order and grouping of insertions, allocations, expansions), whatever the directories contained before and however the writer threads interleave. In particular, saving a loaded map reproduces the files it was loaded from.", "quantifier": "all pairs of reachable maps with equal observable state, formats of the distributions, previous contents of the directories, divisions of the writes into blocks, interleavings of the threads", "why_tests_cant": "the order in which a storage is traversed might depend on the history of the map, and the bytes on the schedule of the threads; tests see few of either", "anchors": ["cslibs_ndt/include/cslibs_ndt/serialization/map.hpp: save", "cslibs_ndt/include/cslibs_ndt/serialization/loader.hpp: header::save", "cslibs_ndt/include/cslibs_ndt/serialization/storage.hpp: binary::save", "cslibs_ndt/include/cslibs_ndt/backend/octree.hpp: traverse"]}
{"id": "C83", "title": "Samples computed in floating point stay close to the exact ones and in their range", "statement": "With densities and occupancies in [0, 1], every sample of a map of floats or doubles is in [0, 1], with and without interpolation, and it differs from the exact mean (or hat-function interpolation) of the densities of the bundle of the point by a stated rounding error only; the computed weights of the bins are in [0, 1].", "quantifier": "all scalar types with IEEE rounding, reachable NDT and occupancy maps, resolutions, points, density and occupancy functions", "why_tests_cant": "rounding errors show for particular combinations of resolution and point: exceeding 1 by one unit in the last place needs a rare point", "anchors": ["cslibs_ndt/include/cslibs_ndt/map/impl/gridmap.hpp: sampleNonNormalized, sampleNonNormalizedBilinear", "cslibs_ndt/include/cslibs_ndt/map/impl/occupancy_gridmap.hpp: sampleNonNormalized, sampleNonNormalizedBilinear", "cslibs_ndt/include/cslibs_ndt/utility/bilinear_interpolation.hpp: get_bilinear_interpolation_weights, to_bilinear_interpolation_weight", "cslibs_ndt/include/cslibs_ndt/map/abstract_map.hpp: div_count"]}
{"id": "C84", "title": "Destroying a map releases what it allocated and nothing that others use", "statement": "When a map object is destroyed, all distribution objects it has allocated are released, and every other map object, in particular its copies and the map it was copied from, returns the same values as before.", "quantifier": "all maps, all copies, all histories of operations on original and copy before the destruction", "why_tests_cant": "use of released memory depends on which of two objects dies first and on what happened to both before; a test that reads released memory usually still sees the old values, and leaks are invisible to assertions", "anchors": ["cslibs_ndt/include/cslibs_ndt/map/abstract_map.hpp:AbstractMap(const AbstractMap &), ~AbstractMap", "cslibs_ndt/include/cslibs_ndt/utility/create.hpp:create", "cslibs_ndt/include/cslibs_ndt/backend/octree.hpp:root_ (no destructor)", "cslibs_ndt/include/cslibs_ndt/common/bundle.hpp:Bundle"]}
{"id": "C85", "title": "Interpolated scan matching cost is one smooth function in [0,1]", "statement": "Create a ceres scan matching cost with Flag::INTERPOLATION on a 2D map, with a non-zero sampling resolution. The cost of a point is the same whether the solver requests derivatives or not, and lies in [0,1]. It equals 1 minus the non-normalized sample of the map at every multiple of the sampling resolution; it is continuous and continuously differentiable in the point although the samples jump at bundle boundaries, and the derivatives handed to the solver are its derivatives. It is defined everywhere on static maps. Occupancy maps behave the same with an inverse model, and both evaluations throw without one.", "quantifier": "all histories of static and dynamic NDT and occupancy maps, all sampling resolutions, all densities, all points", "why_tests_cant": "smoothness and the range are statements about a continuum of points and about every arrangement of 16 samples; a unit test compares the two evaluations at a few points, typically grid points, where they agree", "anchors": ["cslibs_ndt_2d/include/cslibs_ndt_2d/matching/ceres/map/gridmap_cost_functor.hpp:ScanMatchCostFunctor<..., Flag::INTERPOLATION>", "cslibs_ndt_2d/include/cslibs_ndt_2d/matching/ceres/map/occupancy_gridmap_cost_functor.hpp:ScanMatchCostFunctor<..., Flag::INTERPOLATION>"]}
{"id": "C86", "title": "Moving and copying hand over the contents for good", "statement": "A map constructed from another one by std::move, or from a temporary, returns what that one returned before, and keeps its contents whatever happens to the source afterwards, in particular when the source is destroyed. A copy of a single-resolution map is independent of the original: after any interleaving of operations on both, each of them holds what its own operations give.", "quantifier": "all NDT and occupancy maps, all single-resolution maps, all histories before the move or copy, all interleavings of operations on both objects afterwards, the destruction of the source", "why_tests_cant": "whether objects are shared shows only when the source is changed or destroyed later, and reading released memory usually still gives the old values in a test", "anchors": ["cslibs_ndt/include/cslibs_ndt/map/generic_map.hpp:GenericMap(GenericMap &&)", "cslibs_ndt/include/cslibs_ndt/map/abstract_map.hpp:AbstractMap(AbstractMap &&)", "cslibs_ndt/include/cslibs_ndt/map/impl/gridmap.hpp:Map(base_t &&)", "cslibs_ndt_2d/include/cslibs_ndt_2d/static_maps/mono_gridmap.hpp:Gridmap(const Gridmap &), Gridmap(Gridmap &&)"]}
{"id": "C87", "title": "The accessors of the single-resolution map describe its cells", "statement": "After any history of insertions and requests of cells, getIndices and traverse list exactly the cells that were requested or into which a point fell, each once. get at a point returns the distribution of the cell of that point, or null outside the map. validate accepts exactly the points between getMin and getMax, that extent is getWidth by getHeight, it contains all cells, and getOrigin is its corner in the world.", "quantifier": "all sizes, offsets, resolutions, origins, histories and points", "why_tests_cant": "consistency of five accessors over all offsets, rotations and points; tests use unrotated maps that start at index 0", "anchors": ["cslibs_ndt_2d/include/cslibs_ndt_2d/static_maps/mono_gridmap.hpp:getMin, getMax, getOrigin, getWidth, getHeight, getIndices, traverse, get, validate"]}
{"id": "C88", "title": "Occupancies computed in floating point follow the evidence", "statement": "Computed in the scalar type of the map, the occupancy of a distribution is still a probability, no hit lowers it and no miss raises it, and it differs from the exact occupancy of the recorded observations by a stated rounding error. Every observation counts: the recorded numbers and weights of hits and misses are the totals of all observations, in any order.", "quantifier": "all scalar types with IEEE rounding, all inverse models whose log odds are ordered free <= prior <= occupied, all histories of hits and misses, weighted or not, of any length", "why_tests_cant": "rounding breaks monotonicity and the sums only after millions of observations of a cell and for particular log odds; no test runs that long", "anchors": ["cslibs_ndt/include/cslibs_ndt/common/occupancy_distribution.hpp: getOccupancy", "cslibs_ndt/include/cslibs_ndt/common/weighted_occupancy_distribution.hpp: updateFree, updateOccupied, getOccupancy"]}
{"id": "C89", "title": "The memory a dynamic map reports follows the mapped area", "statement": "getByteSize() of a dynamic map is determined by which bundles are allocated (and, for occupancy maps, by how many distributions recorded a hit): the map object, an octree of exactly these bundles and, per grid, an octree of exactly the cells these bundles lie in. It grows at most linearly with the number of bundles and never shrinks. Insertions allocate exactly the bundles their accepted points fall into, so mapping an area again costs no memory in an NDT map.", "quantifier": "all histories of insertions, accesses and allocations, all clouds, poses and dimensions, all sizes of the C++ types", "why_tests_cant": "a leak or a superfluous allocation shows only as a number that a test has no reference for; the formula must hold for every set of bundles and every order of insertions", "anchors": ["cslibs_ndt/include/cslibs_ndt/map/abstract_map.hpp: getByteSize, getAllocate", "cslibs_ndt/include/cslibs_ndt/backend/octree.hpp: byte_size", "cslibs_ndt/include/cslibs_ndt/common/distribution.hpp: byte_size", "cslibs_ndt/include/cslibs_ndt/common/bundle.hpp: byte_size", "cslibs_ndt/include/cslibs_ndt/common/occupancy_distribution.hpp: byte_size", "cslibs_ndt/include/cslibs_ndt/common/weighted_occupancy_distribution.hpp: byte_size"]}
{"id": "C90", "title": "After neighbourhood allocation the sampled field depends only on the inserted points", "statement": "Call allocatePartiallyAllocatedBundles() after any history of insertions, possibly followed by lookups and further allocations. Then sampleNonNormalized and sampleNonNormalizedBilinear at every point of the map are the mean resp. the hat-function interpolation, over the 2^Dim grids, of the density of all points inserted into the cell that contains the point, wherever the bundle of that point was allocated or not. Two maps, static or dynamic, that were given the same points have the same samples, whatever the order of insertions, the splitting into clouds and the lookups in between. For occupancy maps the same holds with density times occupancy of the cell. (Before the allocation this is false: the sample next to a mapped bundle depends on which bundles happened to be looked up.)", "quantifier": "all NDT and occupancy maps, all histories, all points of the map, all densities that vanish for distributions that are not valid", "why_tests_cant": "the statement compares all histories with the same points at every point of the space; which bundles exist depends on the whole history", "anchors": ["cslibs_ndt/include/cslibs_ndt/map/abstract_map.hpp:allocatePartiallyAllocatedBundles, expandBundle", "cslibs_ndt/include/cslibs_ndt/map/impl/gridmap.hpp:sampleNonNormalized, sampleNonNormalizedBilinear, expandDistribution", "cslibs_ndt/include/cslibs_ndt/map/impl/occupancy_gridmap.hpp:sampleNonNormalized, expandDistribution", "cslibs_ndt/include/cslibs_ndt/map/impl/weighted_occupancy_gridmap.hpp:sampleNonNormalized, expandDistribution"]}
{"id": "C91", "title": "Only the pose of the sensor relative to the map matters", "statement": "Move the map pose and all sensor poses of a history by the same motion of the world. The resulting map is the same: same allocated bundles, same contents, and samples at moved points equal the samples at the original points. This includes occupancy maps with ray updates and visibility tests. For NDT maps, inserting a cloud with a sensor pose is the same as inserting the transformed cloud with the identity.", "quantifier": "all histories, all motions of the world, all map poses, all NDT and occupancy maps, all ray tracers", "why_tests_cant": "the claim relates two arbitrary histories in different frames; tests use the identity pose for the map", "anchors": ["cslibs_ndt/include/cslibs_ndt/map/impl/gridmap.hpp:insert, sampleNonNormalized", "cslibs_ndt/include/cslibs_ndt/map/impl/occupancy_gridmap.hpp:insert, insertVisible", "cslibs_ndt/include/cslibs_ndt/map/impl/weighted_occupancy_gridmap.hpp:insert, insertVisible", "cslibs_ndt/include/cslibs_ndt/map/abstract_map.hpp:toBundleIndex"]}
{"id": "C92", "title": "The lattice of a map can be displaced by half cells without any effect on contents and field", "statement": "Give two maps of the same resolution, whose origins (and regions, if they are static) differ by a multiple of half the resolution in every dimension, the same history. Every cell of the one map is a cell of the other, possibly of another of its overlapping grids, and holds the same points, hits and misses. After allocatePartiallyAllocatedBundles() both return the same samples at every point of the world, plain and bilinear, although bundles and grids have other indices.", "quantifier": "all NDT, occupancy and weighted occupancy maps, dynamic and static, all histories of insertions (insertVisible included), lookups and allocations, all integer displacements in half cells (negative ones included), all points, all line iterators that visit the same parts of space, all densities that are invariant under translations and vanish for distributions that are not valid", "why_tests_cant": "an asymmetry between the grids, or between positive and negative indices, shows only for particular displacements and points", "anchors": ["cslibs_ndt/include/cslibs_ndt/map/abstract_map.hpp:toBundleIndex, getAllocate", "cslibs_ndt/include/cslibs_ndt/utility/binary_indices.hpp:generate_index", "cslibs_ndt/include/cslibs_ndt/utility/bilinear_interpolation.hpp", "cslibs_ndt/include/cslibs_ndt/map/impl/gridmap.hpp:insert, sampleNonNormalized, sampleNonNormalizedBilinear", "cslibs_ndt/include/cslibs_ndt/map/impl/occupancy_gridmap.hpp:insert, sampleNonNormalized, sampleNonNormalizedBilinear", "cslibs_ndt/include/cslibs_ndt/map/impl/weighted_occupancy_gridmap.hpp:insert, sampleNonNormalized, sampleNonNormalizedBilinear"]}
{"id": "C93", "title": "Occupancy maps of floating-point numbers count every hit and miss where it lies", "statement": "On an occupancy map with float or double coordinates every scanned point counts as one hit in exactly one distribution of each overlapping grid, whose cell contains the point; no history of scans, with or without visibility test, records points that were not scanned; the misses of a scan are those of the rays to the means of the points in its hit bundles; away from cell borders, and for resolutions that are powers of two, the map goes through the same states as with exact arithmetic.", "quantifier": "all scalar types with IEEE rounding, all resolutions, maps, ray tracers, hash orders and histories of scans", "why_tests_cant": "Which floats fall on the wrong side of a cell border depends on the resolution, and whether that changes a history depends on all scans before.", "anchors": ["cslibs_ndt/include/cslibs_ndt/map/impl/occupancy_gridmap.hpp:insert, insertVisible", "cslibs_ndt/include/cslibs_ndt/map/impl/weighted_occupancy_gridmap.hpp:insert, insertVisible", "cslibs_ndt/include/cslibs_ndt/map/abstract_map.hpp:toBundleIndex"]}
{"id": "C94", "title": "Converting a map is repeatable and leaves its contents alone", "statement": "A conversion to a probability, binary, distance or likelihood grid or to a point cloud never changes the contents of a distribution and never removes a bundle; without allocate_all it leaves the map exactly as it was. The result does not depend on the previous target. Without a source, or without an inverse model for an occupancy map, it returns and changes nothing. Converting the unchanged map again gives the same result.", "quantifier": "all maps, all histories, all conversion parameters, all previous targets, any number of repetitions", "why_tests_cant": "allocate_all changes the const source during the conversion, so the second result depends on what the first one left behind, for every map", "anchors": ["cslibs_ndt_2d/include/cslibs_ndt_2d/conversion/probability_gridmap.hpp:from", "cslibs_ndt_2d/include/cslibs_ndt_2d/conversion/binary_gridmap.hpp:from", "cslibs_ndt_2d/include/cslibs_ndt_2d/conversion/distance_gridmap.hpp:from", "cslibs_ndt_2d/include/cslibs_ndt_2d/conversion/likelihood_field_gridmap.hpp:from", "cslibs_ndt_3d/include/cslibs_ndt_3d/conversion/sensor_msgs_pointcloud2.hpp:from", "cslibs_ndt/include/cslibs_ndt/map/abstract_map.hpp:allocatePartiallyAllocatedBundles"]}
{"id": "C95", "title": "The order and the batching of scans in an occupancy map do not matter", "statement": "Inserting the same scans into an occupancy map in another order gives an indistinguishable map, also with lookups and allocations in between and also for visibility-aware insertion. Inserting a cloud at once or in successive pieces with the same sensor pose gives an indistinguishable map.", "quantifier": "all occupancy maps of both classes, all reachable states, all sequences of scans and all permutations, all partitions of a cloud, all ray tracers and hash orders", "why_tests_cant": "the number of orders and partitions is unbounded, and a difference shows only in counters of cells that several rays cross", "anchors": ["cslibs_ndt/include/cslibs_ndt/map/impl/occupancy_gridmap.hpp:insert, insertVisible", "cslibs_ndt/include/cslibs_ndt/map/impl/weighted_occupancy_gridmap.hpp:insert, insertVisible", "cslibs_ndt/include/cslibs_ndt/common/occupancy_distribution.hpp", "cslibs_ndt/include/cslibs_ndt/common/weighted_occupancy_distribution.hpp"]}
{"id": "C96", "title": "Points are assigned to the right bundle over the whole range of float and double", "statement": "For every coordinate of type float or double, subnormal numbers included, the bundle index is the one of the bundle that contains the point up to the rounding error, and for resolutions that are powers of two exactly; NaN, infinite coordinates and coordinates beyond the range of int have no index; neither underflow nor overflow changes what any history of insertions stores.", "quantifier": "all floats and doubles, all resolutions from twice the smallest normal number to its inverse, all maps and histories", "why_tests_cant": "underflow and overflow occur for few of the 2^64 values of a coordinate, in combination with particular resolutions and map origins", "anchors": ["cslibs_ndt/include/cslibs_ndt/map/abstract_map.hpp:toBundleIndex, bundle_resolution_, bundle_resolution_inv_", "cslibs_ndt/include/cslibs_ndt/map/generic_map.hpp:insert", "cslibs_ndt/include/cslibs_ndt/map/impl/occupancy_gridmap.hpp:insert, insertVisible", "cslibs_ndt/include/cslibs_ndt/map/impl/weighted_occupancy_gridmap.hpp:insert, insertVisible"]}
{"id": "C97", "title": "The occupancy is a probability for every inverse sensor model", "statement": "For every inverse sensor model with probabilities from 0 to 1 the occupancy of a distribution is a probability: 0 without hits, the probability the model assigns if it is certain about hits or misses, and otherwise the value of the log-odds update. Sampled values of occupancy maps are then numbers.", "quantifier": "all histories of hits and misses, weighted and unweighted, all inverse models with probabilities in [0, 1]", "why_tests_cant": "log odds of 0 and 1 are infinite, and whether infinities cancel to NaN depends on the counts of hits and misses of each cell", "anchors": ["cslibs_ndt/include/cslibs_ndt/common/occupancy_distribution.hpp:getOccupancy", "cslibs_ndt/include/cslibs_ndt/common/weighted_occupancy_distribution.hpp:getOccupancy", "cslibs_ndt/include/cslibs_ndt/map/impl/occupancy_gridmap.hpp:sampleNonNormalized", "cslibs_ndt/include/cslibs_ndt/map/impl/weighted_occupancy_gridmap.hpp:sampleNonNormalized"]}
{"id": "C98", "title": "Everything computed from a map depends only on its contents", "statement": "Two maps of the same type with the same bundles, contents and bounds give the same grids (probability, binary, distance, likelihood field), the same point cloud messages byte by byte, the same coloured clouds and the same sequence of markers, are converted to the same static, dynamic and single-resolution maps, report the same sizes, and have the same scan matching costs and derivatives, with or without allocating all neighbours first. In particular this holds for a saved map and the loaded one, and for maps into which the same points were inserted in another order.", "quantifier": "all pairs of reachable maps with equal observable state, all parameters of the conversions, exact and floating-point arithmetic of the conversion", "why_tests_cant": "the order of points and markers, rounding in sums and the choice of neighbours might depend on the history of the map, on the shape of its trees or on flags that are not saved", "anchors": ["cslibs_ndt_2d/include/cslibs_ndt_2d/conversion/probability_gridmap.hpp:from", "cslibs_ndt_2d/include/cslibs_ndt_2d/conversion/binary_gridmap.hpp:from", "cslibs_ndt_2d/include/cslibs_ndt_2d/conversion/distance_gridmap.hpp:from", "cslibs_ndt_2d/include/cslibs_ndt_2d/conversion/likelihood_field_gridmap.hpp:from", "cslibs_ndt_2d/include/cslibs_ndt_2d/conversion/merge.hpp:merge", "cslibs_ndt/include/cslibs_ndt/conversion/map.hpp:from", "cslibs_ndt_2d/include/cslibs_ndt_2d/conversion/distributions.hpp:from", "cslibs_ndt_3d/include/cslibs_ndt_3d/conversion/distributions.hpp:from", "cslibs_ndt_3d/include/cslibs_ndt_3d/conversion/sensor_msgs_pointcloud2.hpp:from", "cslibs_ndt_3d/include/cslibs_ndt_3d/conversion/sensor_msgs_pointcloud2_rgb.hpp:from", "cslibs_ndt/include/cslibs_ndt/backend/octree.hpp:traverse", "cslibs_ndt/include/cslibs_ndt/map/abstract_map.hpp:allocatePartiallyAllocatedBundles", "cslibs_ndt_2d/include/cslibs_ndt_2d/matching/ceres/map/gridmap_cost_functor.hpp:Evaluate"]}
{"id": "C99", "title": "Insertions act locally", "statement": "The value sampled at a point (plain or bilinear) depends only on the accepted points that share a cell with it, which are less than one resolution away in every coordinate: inserting a cloud that is farther away never changes it, and two sequences of insertions that agree on the nearby points give the same value. A scan inserted into an occupancy map, plain or with the visibility test, changes no sample in a bundle unless a hit or a ray of it touches that bundle or a neighbour.", "quantifier": "all dimensions, all classes of maps, all reachable maps, all sequences of insertions and scans, all points, all densities, inverse models and ray tracers", "why_tests_cant": "an insertion may allocate bundles, shares distributions between neighbouring bundles and grows trees; no sample of points can exclude an influence at a distance", "anchors": ["cslibs_ndt/include/cslibs_ndt/map/impl/gridmap.hpp:insert", "cslibs_ndt/include/cslibs_ndt/map/impl/gridmap.hpp:sampleNonNormalized", "cslibs_ndt/include/cslibs_ndt/map/impl/gridmap.hpp:sampleNonNormalizedBilinear", "cslibs_ndt/include/cslibs_ndt/map/impl/occupancy_gridmap.hpp:insert", "cslibs_ndt/include/cslibs_ndt/map/impl/occupancy_gridmap.hpp:insertVisible", "cslibs_ndt/include/cslibs_ndt/map/impl/occupancy_gridmap.hpp:sampleNonNormalized", "cslibs_ndt/include/cslibs_ndt/map/impl/weighted_occupancy_gridmap.hpp:insert", "cslibs_ndt/include/cslibs_ndt/map/impl/weighted_occupancy_gridmap.hpp:insertVisible", "cslibs_ndt/include/cslibs_ndt/map/impl/weighted_occupancy_gridmap.hpp:sampleNonNormalized"]}
{"id": "C100", "title": "Interruptions of a mapping session leave no trace", "statement": "Fill a dynamic NDT map or occupancy map in stages, and between the stages replace it, as often as you like and in any order, by the map loaded from the directory it was saved to, by the result of converting it to a static map and back, by a copy, or by the map it was moved to. The final map has the same origin, resolution, bundles, contents, bounds, samples and saved files as if all operations had been carried out on one map without interruption, and later operations have the same results. As long as the map has a bundle, saving, loading and converting are always possible.", "quantifier": "all dimensions, all sequences of operations and interruptions (any number of each), all directories saved to, all interleavings of writer and loader threads, all resolutions and origins, all file formats that represent the numbers in the map", "why_tests_cant": "the interruptions can be composed in infinitely many ways, and each of them rebuilds trees, heaps and flags differently; a test covers single round trips", "anchors": ["cslibs_ndt/include/cslibs_ndt/serialization/map.hpp:save, load", "cslibs_ndt/include/cslibs_ndt/serialization/storage.hpp:save, loadStorage", "cslibs_ndt/include/cslibs_ndt/serialization/loader.hpp:header, load", "cslibs_ndt/include/cslibs_ndt/conversion/map.hpp:convert", "cslibs_ndt/include/cslibs_ndt/map/abstract_map.hpp:AbstractMap(const AbstractMap &)", "cslibs_ndt/include/cslibs_ndt/map/generic_map.hpp:GenericMap", "cslibs_ndt/include/cslibs_ndt/map/impl/gridmap.hpp:insert", "cslibs_ndt/include/cslibs_ndt/map/impl/occupancy_gridmap.hpp:insert, insertVisible"]}
{"id": "C101", "title": "Scan matching depends only on the poses relative to the map", "statement": "If the map, the initial guess and the judged pose are moved by the same motion of the world, the value minimised by ceres, nlopt and alglib does not change, and the best pose of the moved problem is the moved best pose. In particular two descriptions of the same pose have the same cost.", "quantifier": "all maps and histories, scans, weights, guesses, poses and motions of the world", "why_tests_cant": "the choice of the world frame changes every number of the computation; that the combination does not change is an identity over all real parameters", "anchors": ["cslibs_ndt/include/cslibs_ndt/matching/ceres/problem.hpp:Problem2d", "cslibs_ndt/include/cslibs_ndt/matching/ceres/problem.hpp:Problem3dQuaternion", "cslibs_ndt/include/cslibs_ndt/matching/ceres/problem.hpp:Problem3dRPY", "cslibs_ndt/include/cslibs_ndt/matching/ceres/rotation/rotation_cost_functor_3d_rpy.hpp:RotationCostFunctor3dRPY", "cslibs_ndt_2d/include/cslibs_ndt_2d/matching/nlopt/gridmap_function.hpp:apply", "cslibs_ndt_2d/include/cslibs_ndt_2d/matching/nlopt/occupancy_gridmap_function.hpp:apply", "cslibs_ndt_2d/include/cslibs_ndt_2d/matching/alglib/gridmap_function.hpp:apply", "cslibs_ndt_3d/include/cslibs_ndt_3d/matching/alglib/gridmap_function.hpp:applyQuaternion", "cslibs_ndt_3d/include/cslibs_ndt_3d/matching/nlopt/gridmap_function.hpp:applyQuaternion"]}
{"id": "C102", "title": "The derivatives from automatic differentiation are the derivatives of the residuals", "statement": "With automatic differentiation, ceres gets for every residual (map term in 2D, with quaternions and with Euler angles, on NDT and occupancy maps; translation and rotation priors) its value, and wherever the residual is differentiable in the parameters, its partial derivatives. It is differentiable unless a scan point is on the border between two bundles of the map, or the rotation is opposite to the prior. There, the sum over all residuals of value times derivatives is the gradient of the cost of the whole problem. The Jacobians of the parameter updates are the derivatives of the updates in the step; for Euler angles in [-pi, pi] they are the identity, outside they are 0.", "quantifier": "all maps and their histories, scan points, poses, weights and priors", "why_tests_cant": "the derivative of a piecewise function over all poses; tests compare finitely many difference quotients, and at the borders and at residuals of value 0 the code takes special branches", "anchors": ["cslibs_ndt/include/cslibs_ndt/matching/ceres/map/scan_match_cost_functor_2d.hpp:operator()", "cslibs_ndt/include/cslibs_ndt/matching/ceres/map/scan_match_cost_functor_3d_quaternion.hpp:operator()", "cslibs_ndt/include/cslibs_ndt/matching/ceres/map/scan_match_cost_functor_3d_rpy.hpp:operator()", "cslibs_ndt_2d/include/cslibs_ndt_2d/matching/ceres/map/gridmap_cost_functor.hpp:Evaluate", "cslibs_ndt_3d/include/cslibs_ndt_3d/matching/ceres/map/occupancy_gridmap_cost_functor.hpp:Evaluate", "cslibs_ndt/include/cslibs_ndt/matching/ceres/rotation/rotation_cost_functor_2d.hpp:AngleDifference", "cslibs_ndt/include/cslibs_ndt/matching/ceres/rotation/rotation_cost_functor_3d_quaternion.hpp:operator()", "cslibs_ndt/include/cslibs_ndt/matching/ceres/translation/translation_cost_functor_2d.hpp:operator()", "cslibs_ndt/include/cslibs_ndt/matching/ceres/local_parameterization.hpp:EulerPlus", "cslibs_ndt/include/cslibs_ndt/matching/ceres/local_parameterization.hpp:YawOnlyQuaternionPlus"]}
{"id": "C103", "title": "The value sampled without interpolation changes continuously with the point", "statement": "sampleNonNormalized(p) is a continuous function of p where the map knows its surroundings: crossing a border of bundles does not make the value jump.", "quantifier": "all maps and their histories, densities and points", "why_tests_cant": "continuity is a statement about all points near a point and all contents of the distributions", "anchors": ["cslibs_ndt/include/cslibs_ndt/map/impl/gridmap.hpp:Map::sampleNonNormalized", "cslibs_ndt/include/cslibs_ndt/map/impl/occupancy_gridmap.hpp:Map::sampleNonNormalized", "cslibs_ndt/include/cslibs_ndt/map/abstract_map.hpp:div_count"]}
{"id": "C104", "title": "The unit of length does not matter", "statement": "If the resolution, the origin of the map, the clouds and the sensor poses of a whole history are given in another unit (multiplied by s > 0), the resulting map has the same bundles, its distributions hold the same points in the new unit, its corners are converted, and samples at converted points are the same. In floating point this holds for powers of two.", "quantifier": "all histories of operations on static and dynamic NDT and occupancy maps, all factors s > 0", "why_tests_cant": "relates two executions of every history; a hidden absolute length (an epsilon, a default resolution) would show for some factors only", "anchors": ["cslibs_ndt/include/cslibs_ndt/map/abstract_map.hpp:toBundleIndex, bundle_resolution_inv_", "cslibs_ndt/include/cslibs_ndt/map/impl/gridmap.hpp:Map::insert", "cslibs_ndt/include/cslibs_ndt/map/impl/occupancy_gridmap.hpp:insert, insertVisible", "cslibs_ndt/include/cslibs_ndt/map/impl/weighted_occupancy_gridmap.hpp:insert, insertVisible", "cslibs_ndt/include/cslibs_ndt/utility/bilinear_interpolation.hpp:get_bilinear_interpolation_weights"]}
{"id": "C105", "title": "The three kinds of maps agree on the same scans", "statement": "An NDT map, an occupancy map and a weighted occupancy map built by inserting the same scans hold the same points in every cell (with weight 1 in the weighted map), both occupancy maps have the same free counts and occupancies, and the value sampled from an occupancy map is never larger than the one sampled from the NDT map.", "quantifier": "all histories of insertions, lookups and allocations on static and dynamic maps with the same scans, all line iterators, hash orders and inverse sensor models", "why_tests_cant": "relates executions of three implementations for every history; differences show only for particular rays and points", "anchors": ["cslibs_ndt/include/cslibs_ndt/map/impl/gridmap.hpp:Map::insert, sampleNonNormalized", "cslibs_ndt/include/cslibs_ndt/map/impl/occupancy_gridmap.hpp:insert, sampleNonNormalized", "cslibs_ndt/include/cslibs_ndt/map/impl/weighted_occupancy_gridmap.hpp:insert, sampleNonNormalized", "cslibs_ndt/include/cslibs_ndt/common/occupancy_distribution.hpp:getOccupancy", "cslibs_ndt/include/cslibs_ndt/common/weighted_occupancy_distribution.hpp:getOccupancy"]}
{"id": "C106", "title": "The axes are interchangeable", "statement": "If the size and the origin of the map, the poses, the clouds and the queries of a whole history are given with their coordinates in another order, every cell of the resulting map holds the points, hits and misses of the corresponding cell of the original map, and samples at corresponding points are the same.", "quantifier": "all histories of insertions (for occupancy maps: scans given to insert; the visibility-aware insertion goes through the hits in the order of their indices and is not symmetric, which is proved as well), lookups and allocations on static and dynamic NDT and occupancy maps of any dimension, all permutations of the axes", "why_tests_cant": "relates two executions of every history; a swapped index, shift or stride shows only for maps and clouds that are not symmetric", "anchors": ["cslibs_ndt/include/cslibs_ndt/map/abstract_map.hpp:generateIndices, toBundleIndex", "cslibs_ndt/include/cslibs_ndt/map/impl/gridmap.hpp:Map::insert", "cslibs_ndt/include/cslibs_ndt/map/impl/occupancy_gridmap.hpp:insert", "cslibs_ndt/include/cslibs_ndt/map/impl/weighted_occupancy_gridmap.hpp:insert", "cslibs_ndt/include/cslibs_ndt/utility/bilinear_interpolation.hpp:get_bilinear_interpolation_weights"]}
{"id": "C107", "title": "The exported markers show the covariances of the distributions", "statement": "Every ellipsoid in the exported marker array has a normalised orientation and shows, at its place in the world, the one-sigma ellipsoid of the covariance of the distribution it stands for (in 2D seen from above), up to the minimal thickness of the markers.", "quantifier": "all reachable 2D and 3D NDT and occupancy maps, all poses of the map, all distributions and all eigen-decompositions of their covariances that the solver may return", "why_tests_cant": "the orientation is computed from eigenvectors whose order and signs are up to the solver; a few markers compared by eye do not cover the four branches of the conversion nor both handednesses", "anchors": ["cslibs_ndt_2d/include/cslibs_ndt_2d/conversion/distributions.hpp:from", "cslibs_ndt_3d/include/cslibs_ndt_3d/conversion/distributions.hpp:from"]}
{"id": "C108", "title": "The evidence decides: occupancies follow Bayes' rule, vanished obstacles are forgotten, new ones are learned", "statement": "The occupancy of a distribution is the belief that Bayes' rule gives when the inverse model's prior is updated by each recorded miss and hit, in any order. It reaches a threshold exactly if the evidence of the hits outweighs that of the misses. So once sufficiently many scans have looked through a place without hitting it, samples there are below any given fraction of the density, whatever was recorded before; and once sufficiently many scans have hit a cell, its occupancy is above any given threshold below 1. The numbers of scans that suffice are explicit.", "quantifier": "all inverse models with probabilities strictly between 0 and 1 whose misses lower and hits raise the belief, all reachable occupancy and weighted maps, all places, all histories of later scans, all densities and thresholds", "why_tests_cant": "a statement about every history and arbitrarily many scans; tests run a few scans with one model", "anchors": ["cslibs_ndt/include/cslibs_ndt/common/occupancy_distribution.hpp:getOccupancy", "cslibs_ndt/include/cslibs_ndt/map/impl/occupancy_gridmap.hpp:insert", "cslibs_ndt/include/cslibs_ndt/map/impl/weighted_occupancy_gridmap.hpp:insert", "cslibs_ndt/include/cslibs_ndt/map/impl/occupancy_gridmap.hpp:sampleNonNormalized"]}
{"id": "C109", "title": "Maps of different resolutions agree", "statement": "If two maps receive the same points and the resolution of one is n times that of the other, each distribution of the coarse map contains exactly the points of the n^d distributions of the fine map whose cells lie inside of its cell (of the same overlapping grid for odd n, of the unshifted one for even n), so that the coarse map can be computed from the fine one. For any other pair of resolutions the points of a distribution lie between those of the cells inside of its cell and those of the cells that cover it. The same holds for the hits of occupancy and weighted maps.", "quantifier": "all dimensions, all resolutions and all multiples n, all histories, all kinds of storage, all cells", "why_tests_cant": "relates two programs on every history, for every ratio of resolutions", "anchors": ["cslibs_ndt/include/cslibs_ndt/map/impl/gridmap.hpp:Map::insert", "cslibs_ndt/include/cslibs_ndt/map/abstract_map.hpp:toBundleIndex", "cslibs_ndt/include/cslibs_ndt/map/impl/occupancy_gridmap.hpp:insert", "cslibs_ndt/include/cslibs_ndt/map/impl/weighted_occupancy_gridmap.hpp:insert"]}
{"id": "C110", "title": "Mirror images and rotations by right angles", "statement": "If a map receives the mirror image of everything another map receives (size and origin, poses, clouds, sensor origins), with respect to any choice of axes, and no inserted point lies on a border between bundles, then the mirror image of each cell contains the mirror images of its points, and the samples at mirrored points on no borders are equal. The same holds if the axes are also given in another order, which includes all rotations by multiples of 90 degrees. Occupancy and weighted maps agree in hits and misses if the line iterator treats both directions of the axes alike.", "quantifier": "all dimensions, all sets of mirrored axes and all orders of the axes, all histories (for occupancy maps: scans given to insert; the visibility-aware insertion is not symmetric, which is proved as well), all kinds of storage, all cells and all points on no borders", "why_tests_cant": "relates two programs on every history; the half-open cells make it fail exactly on the borders (C106_mirror_refuted)", "anchors": ["cslibs_ndt/include/cslibs_ndt/map/impl/gridmap.hpp:Map::insert", "cslibs_ndt/include/cslibs_ndt/map/impl/gridmap.hpp:sample", "cslibs_ndt/include/cslibs_ndt/map/impl/gridmap.hpp:sampleNonNormalized", "cslibs_ndt/include/cslibs_ndt/map/abstract_map.hpp:toBundleIndex", "cslibs_ndt/include/cslibs_ndt/map/impl/occupancy_gridmap.hpp:insert", "cslibs_ndt/include/cslibs_ndt/map/impl/weighted_occupancy_gridmap.hpp:insert"]}
{"id": "C111", "title": "Exported 3D markers are coloured by their height within the map", "statement": "The 3D marker conversion colours every marker by its height on a scale between two limits. All markers have heights between these limits, whatever the pose of the map and the transformation given by the caller, so that the scale is neither exceeded nor reversed.", "quantifier": "all histories, static and dynamic maps, NDT and occupancy maps, all poses, all color interpolations", "why_tests_cant": "quantifies over all histories and all poses of the map", "anchors": ["cslibs_ndt_3d/include/cslibs_ndt_3d/conversion/distributions.hpp:from", "cslibs_ndt/include/cslibs_ndt/map/abstract_map.hpp:getMin", "cslibs_ndt/include/cslibs_ndt/map/abstract_map.hpp:getMax"]}
{"id": "C112", "title": "A static map is a window of the dynamic map of the same scans", "statement": "Insert the same scans into two maps of the same resolution and origin, where the area of one (for example a static map) is a part of the area of the other (a dynamic map, or a larger static one). Then each distribution of the smaller map holds exactly those points of the corresponding distribution of the larger one that lie in the smaller area, cells within this area have the same hits and the same free space evidence in both maps, and samples at points whose cells lie in this area are the same.", "quantifier": "all histories of scans with any other operations in between, all pairs of static and dynamic maps with nested areas, NDT, occupancy and weighted occupancy maps, all cells and points", "why_tests_cant": "quantifies over all histories and all pairs of maps", "anchors": ["cslibs_ndt/include/cslibs_ndt/map/impl/gridmap.hpp:insert", "cslibs_ndt/include/cslibs_ndt/map/impl/occupancy_gridmap.hpp:insert", "cslibs_ndt/include/cslibs_ndt/map/impl/weighted_occupancy_gridmap.hpp:insert", "cslibs_ndt/include/cslibs_ndt/map/generic_map.hpp:valid"]}
{"id": "C113", "title": "Samples are positive exactly where the map has evidence, and evidence is never lost", "statement": "Samples are never negative. After neighbourhood allocation (allocatePartiallyAllocatedBundles) the sample at a point is positive if and only if the map covers the point and one of the cells around it received enough points for a distribution; interpolated samples additionally require the point not to be on the border of that cell. Before it, the bundle of the point must exist as well. In occupancy maps only hits count: sampling at a hit directly after inserting its scan yields a positive value, and no later operation, no number of misses and no choice of the sensor model turns a positive sample into 0.", "quantifier": "all histories, NDT, occupancy and weighted occupancy maps, static and dynamic, all points, all sensor models, densities that are positive exactly for usable distributions", "why_tests_cant": "quantifies over all histories and all points", "anchors": ["cslibs_ndt/include/cslibs_ndt/map/impl/gridmap.hpp:sampleNonNormalized", "cslibs_ndt/include/cslibs_ndt/map/impl/gridmap.hpp:sampleNonNormalizedBilinear", "cslibs_ndt/include/cslibs_ndt/map/impl/occupancy_gridmap.hpp:sampleNonNormalized", "cslibs_ndt/include/cslibs_ndt/map/impl/weighted_occupancy_gridmap.hpp:sampleNonNormalized", "cslibs_ndt/include/cslibs_ndt/map/abstract_map.hpp:allocatePartiallyAllocatedBundles"]}
{"id": "C114", "title": "Samples over the whole range of float and double: underflow, subnormal densities, NaN", "statement": "In maps of float and of double, sampling densities that are numbers from 0 to 1, subnormal ones included, never overflows: without interpolation the sample is again a number from 0 to 1, the mean of the densities of the bins up to 2^d + 1 roundings and half the smallest positive number per bin; it is positive exactly if some density exceeds 2^d times half the smallest positive number, so no sample is positive without a positive density, but tiny positive densities can vanish. With interpolation the sample is finite, not negative, and between the smallest and the largest density up to roundings and underflow; inside the bundle it is the bilinear interpolation of the densities up to a stated absolute error. A NaN density in any bin of the point makes the sample NaN, even if interpolation gives that bin weight 0, and without interpolation nothing else does. If densities are 0 or at least 2^d times the smallest normal number, exponents do not matter at all. The same holds for products of density and occupancy.", "quantifier": "all histories, NDT and occupancy maps, static and dynamic, all points with finite coordinates, all values of the densities", "why_tests_cant": "quantifies over all histories, all points and all values of the densities including subnormal numbers", "anchors": ["cslibs_ndt/include/cslibs_ndt/map/impl/gridmap.hpp:sampleNonNormalized", "cslibs_ndt/include/cslibs_ndt/map/impl/gridmap.hpp:sampleNonNormalizedBilinear", "cslibs_ndt/include/cslibs_ndt/map/impl/occupancy_gridmap.hpp:sampleNonNormalized", "cslibs_ndt/include/cslibs_ndt/map/impl/occupancy_gridmap.hpp:sampleNonNormalizedBilinear", "cslibs_ndt/include/cslibs_ndt/map/impl/weighted_occupancy_gridmap.hpp:sampleNonNormalized", "cslibs_ndt/include/cslibs_ndt/map/abstract_map.hpp:div_count", "cslibs_ndt/include/cslibs_ndt/utility/bilinear_interpolation.hpp:to_bilinear_interpolation_weight"]}
{"id": "C115", "title": "The single-resolution map of floats and doubles records every point in its cell and contains its own corner", "statement": "In the single-resolution map of float or double, with rounding, subnormal numbers, infinities and NaN, every inserted point inside of the map is recorded as often as it was inserted in exactly one cell, which is the one that contains it; sampling and validate agree with that; points that are not finite are ignored; and the corner that getMin() reports belongs to the map.", "quantifier": "all sequences of insertions of arbitrary values, all origins, all resolutions from the smallest normal number to its inverse, all sizes and offsets", "why_tests_cant": "quantifies over all values of the coordinates, including NaN and subnormal numbers, and all insertion sequences", "anchors": ["cslibs_ndt_2d/include/cslibs_ndt_2d/static_maps/mono_gridmap.hpp:insert", "cslibs_ndt_2d/include/cslibs_ndt_2d/static_maps/mono_gridmap.hpp:toIndex", "cslibs_ndt_2d/include/cslibs_ndt_2d/static_maps/mono_gridmap.hpp:validate", "cslibs_ndt_2d/include/cslibs_ndt_2d/static_maps/mono_gridmap.hpp:getMin", "cslibs_ndt/include/cslibs_ndt/map/abstract_map.hpp:getMin"]}
{"id": "C116", "title": "Free and unmapped space does not occlude", "statement": "A visibility-aware insertion into a map in which nothing is occupied records the points of a scan like a plain insertion does, however long the rays are and wherever the sensor is: cells that are free, unknown or outside of the map are not in the way.", "quantifier": "all occupancy and weighted maps without hits, static and dynamic, all visibility models, all positions of the sensor, all lengths of rays; scans whose points lie in one bundle (hits of the same scan may occlude each other)", "why_tests_cant": "quantifies over all maps, sensor positions and ray lengths; the loss depends on the length of the ray and on the border of the map, which small tests in the middle of a map do not reach", "anchors": ["cslibs_ndt/include/cslibs_ndt/map/impl/occupancy_gridmap.hpp:insertVisible", "cslibs_ndt/include/cslibs_ndt/map/impl/weighted_occupancy_gridmap.hpp:insertVisible"]}
{"id": "C117", "title": "The visibility check only leaves things out", "statement": "Insert the same scans into two equal maps, into one of them with the visibility check (insertVisible with both models) for some or all of the scans and into the other one without (insert). Every cell of the first map holds a subset of the samples that it holds in the second map, no more hits and no more misses; and if only scans allocate bundles, the first map has no bundle that the second one has not.", "quantifier": "all occupancy and weighted maps, static and dynamic, all sequences of scans with and without the check, all models and ray tracers, all accesses and expansions in between, all orders of the hash table", "why_tests_cant": "quantifies over all histories and models; the early returns and the pruned hits of insertVisible depend on everything recorded before", "anchors": ["cslibs_ndt/include/cslibs_ndt/map/impl/occupancy_gridmap.hpp:insertVisible", "cslibs_ndt/include/cslibs_ndt/map/impl/occupancy_gridmap.hpp:insert", "cslibs_ndt/include/cslibs_ndt/map/impl/weighted_occupancy_gridmap.hpp:insertVisible", "cslibs_ndt/include/cslibs_ndt/map/impl/weighted_occupancy_gridmap.hpp:insert"]}
{"id": "C118", "title": "Occupancies over the whole range of float and double", "statement": "For every content of a cell and every inverse model, getOccupancy returns NaN or a number of the scalar type from 0 to 1. With log odds that are infinite or of moderate size (all probabilities of the type give such log odds) it is NaN exactly if the log odds of misses are infinite and hits occurred without misses, or with infinite log odds of the opposite sign; overflow and underflow never cause NaN. Where C88 says so, more hits do not lower it and more misses do not raise it, also if numbers overflow or log odds are infinite. With finite log odds other than tiny ones it is the value of C88 with unbounded exponents, so the error bound of C88 holds for float and double. The same for accumulated weights, and samples of occupancy maps are numbers from 0 to 1 if densities are.", "quantifier": "all contents and histories of cells, all inverse models with finite, infinite and NaN log odds, all probabilities of the scalar type, float and double", "why_tests_cant": "the exponential function overflows after a few hundred observations and the quotient underflows; which combinations of counts and probabilities give infinity minus infinity or zero times infinity depends on the history", "anchors": ["cslibs_ndt/include/cslibs_ndt/common/occupancy_distribution.hpp:getOccupancy", "cslibs_ndt/include/cslibs_ndt/common/weighted_occupancy_distribution.hpp:getOccupancy,updateFree,updateOccupied", "cslibs_ndt/include/cslibs_ndt/map/impl/occupancy_gridmap.hpp:sampleNonNormalized"]}
{"id": "C119", "title": "Which sampling resolutions rasters can be computed with, over the whole range of float and double", "statement": "Converting a 2D map to a raster with any value of the sampling resolution: NaN, zero, a value of which 2^31 or more fit into the edge of a bundle, and a negative value no larger than the edge of a bundle in magnitude are undefined behaviour; infinite values and defined negative ones give a raster without cells; a value above the edge of a bundle, however little, gives a raster that shows the default everywhere; for every other value, subnormal results, overflow and underflow never matter: the raster is the one of C78, unless the index of a column or row reaches 2^31, which is undefined. A dynamic map of doubles can be converted exactly if its raster has no more than 2^31 columns and rows.", "quantifier": "all maps, all contents and sampled functions, all resolutions of the scalar type from 2^-30 to 2^30, all values of the sampling resolution including NaN and infinities, float and double", "why_tests_cant": "the conversion functions check nothing, so the usable values follow from the rounding of a quotient, three conversions to integers and an int multiplication, in combination with the extent of the map", "anchors": ["cslibs_ndt_2d/include/cslibs_ndt_2d/conversion/probability_gridmap.hpp:chunk_step", "cslibs_ndt_2d/include/cslibs_ndt_2d/conversion/likelihood_field_gridmap.hpp:chunk_step", "cslibs_ndt_2d/include/cslibs_ndt_2d/conversion/distance_gridmap.hpp:chunk_step", "cslibs_ndt_2d/include/cslibs_ndt_2d/conversion/binary_gridmap.hpp:chunk_step", "cslibs_ndt/include/cslibs_ndt/map/abstract_map.hpp:getWidth", "cslibs_ndt/include/cslibs_ndt/map/abstract_map.hpp:getHeight"]}
{"id": "C120", "title": "Enough evidence makes an occupancy exactly 0 or 1, but never finally", "statement": "In a map of float or double the occupancy of a distribution with hits is exactly 1 once its evidence exceeds about 27 (float) or 56 (double) bits, and exactly 0 once the evidence against it exceeds 26 or 55 bits; up to 22 or 51 bits it stays below 1, and up to 20 or 49 bits against it, above 0. From there on a further hit leaves the value unchanged, although the exact occupancy still rises. The counts go on, so sufficiently many misses lead from exactly 1 to exactly 0, whatever was recorded before; the numbers that suffice are explicit.", "quantifier": "all histories of a counting or weighted distribution with at least one hit, and fewer than 2^64 observations or weights that sum up to at most 2^60, all inverse models with ordinary log odds, all approximations of exp with relative error up to 1/8, float and double", "why_tests_cant": "where a value becomes exactly 0 or 1 follows from four roundings of the evidence and three of the probability; a test sees one history and one inverse model", "anchors": ["cslibs_ndt/include/cslibs_ndt/common/occupancy_distribution.hpp:getOccupancy", "cslibs_ndt/include/cslibs_ndt/common/occupancy_distribution.hpp:updateFree", "cslibs_ndt/include/cslibs_ndt/common/occupancy_distribution.hpp:updateOccupied", "cslibs_ndt/include/cslibs_ndt/common/weighted_occupancy_distribution.hpp:getOccupancy", "cslibs_ndt/include/cslibs_ndt/common/weighted_occupancy_distribution.hpp:updateFree"]}
{"id": "C121", "title": "Conversion of a single-resolution map in float and double reads inside of the map", "statement": "from(mono map, probability grid, sampling resolution) reads only cells of the source map, and each cell of the target holds the value of the source cell that contains its corner, or 0 if the value is not a normal number in (0, 1], also with the rounding of float and double. (False: with the resolution and the sampling resolution 0.01 a map of 7 cells in double, or of 55 cells in float, is read one column beyond its end. True: never more than one column beyond; never with resolutions of few bits and a ratio that is a power of two.)", "quantifier": "all maps with up to 2^20 columns and rows, all contents, all resolutions and sampling resolutions between 2^-30 and 2^30 with up to 2^20 columns and rows of the target, float and double; infinite, negative and zero sampling resolutions and NaN separately", "why_tests_cant": "whether a column too many is read depends on the rounding of two products and two quotients; it happens at isolated sizes of the map (7, 14, 28, 55, 56, ...), which a test of a few sizes misses", "anchors": ["cslibs_ndt_2d/include/cslibs_ndt_2d/conversion/probability_gridmap.hpp:from", "cslibs_ndt_2d/include/cslibs_ndt_2d/static_maps/mono_gridmap.hpp:getWidth", "cslibs_ndt_2d/include/cslibs_ndt_2d/static_maps/mono_gridmap.hpp:getHeight", "cslibs_ndt_2d/include/cslibs_ndt_2d/static_maps/mono_gridmap.hpp:sampleNonNormalized"]}
{"id": "C122", "title": "Rounding errors of poses stay small", "statement": "The yaw-only quaternion update never normalises the quaternion. Nevertheless, in floating point: after any number of updates the rotation is the initial one followed by the sum of the yaw steps, up to 7 roundings per update; the length of the quaternion stays near 1 accordingly; a level rotation stays exactly level. Updates of Euler angles stay exactly in their range and err by one rounding per update. Scan points are computed where the pose puts them up to a few roundings relative to their distance and the translation, in 2D, with quaternions and with roll, pitch and yaw.", "quantifier": "all sequences of updates of any length, initial rotations, translations, scan points and roundings of at least 6 bits", "why_tests_cant": "rounding errors accumulate over histories of any length, and the error depends on the values of all steps; tests see a few short runs", "anchors": ["cslibs_ndt/include/cslibs_ndt/matching/ceres/local_parameterization.hpp:YawOnlyQuaternionPlus", "cslibs_ndt/include/cslibs_ndt/matching/ceres/local_parameterization.hpp:EulerPlus", "cslibs_ndt/include/cslibs_ndt/matching/ceres/map/scan_match_cost_functor_3d_quaternion.hpp:operator()", "cslibs_ndt/include/cslibs_ndt/matching/ceres/map/scan_match_cost_functor_3d_rpy.hpp:toEigen", "cslibs_ndt/include/cslibs_ndt/matching/ceres/map/scan_match_cost_functor_2d.hpp:operator()"]}
{"id": "C123", "title": "The priors of scan matching keep their meaning in floating point", "statement": "In floating point, barring underflow and overflow: the rotation prior (2D and roll, pitch, yaw) is exactly 0 at the prior, changes its sign with the order of the angles, never exceeds the weight times M_PI, and its size differs from the exact one by a few roundings and the errors of sin, cos and atan2, for all angles, however many turns they contain and on both sides of half a turn. The translation prior is 0 exactly at the prior, has the sign of the deviation, grows with it and has a small relative error. The quaternion prior has a small error relative to the weight and the lengths of the quaternions.", "quantifier": "all angles, translations, quaternions, weights, roundings of at least 6 bits and libraries of given accuracy", "why_tests_cant": "wrapping has a discontinuity at half a turn, where rounding decides on which side an angle falls; tests see a few angles", "anchors": ["cslibs_ndt/include/cslibs_ndt/matching/ceres/rotation/rotation_cost_functor_2d.hpp:AngleDifference", "cslibs_ndt/include/cslibs_ndt/matching/ceres/rotation/rotation_cost_functor_3d_rpy.hpp:AngleDifference", "cslibs_ndt/include/cslibs_ndt/matching/ceres/rotation/rotation_cost_functor_3d_quaternion.hpp:operator()", "cslibs_ndt/include/cslibs_ndt/matching/ceres/translation/translation_cost_functor_2d.hpp:operator()", "cslibs_ndt/include/cslibs_ndt/matching/ceres/translation/translation_cost_functor_3d.hpp:operator()"]}
{"id": "C124", "title": "The weights limit how far matching can leave the initial guess", "statement": "Map values and scores lie between 0 and 1, so a pose that is not worse than the initial guess is close to it: with ceres the weighted squared distance and the weighted squared angle add up to at most the squared map weight times the improvement of the mean squared map value; with nlopt weighted distance and weighted angle add up to at most the map weight; with nlopt on 2D occupancy maps and with alglib the weighted squares are bounded by a constant divided by the number of points. In particular no scan and no map can move the result by more than map weight / translation weight, or turn it by more than map weight / rotation weight.", "quantifier": "all weights, guesses, scans, maps built by any history, and all poses a solver may return that are not worse than the guess", "why_tests_cant": "the pose is the result of an optimisation over a continuum; tests run a few scans with one solver", "anchors": ["cslibs_ndt/include/cslibs_ndt/matching/ceres/problem.hpp:Problem2d", "cslibs_ndt/include/cslibs_ndt/matching/ceres/problem.hpp:Problem3dQuaternion", "cslibs_ndt/include/cslibs_ndt/matching/ceres/problem.hpp:Problem3dRPY", "cslibs_ndt_2d/include/cslibs_ndt_2d/matching/nlopt/gridmap_function.hpp:apply", "cslibs_ndt_2d/include/cslibs_ndt_2d/matching/nlopt/occupancy_gridmap_function.hpp:apply", "cslibs_ndt_3d/include/cslibs_ndt_3d/matching/nlopt/gridmap_function.hpp:applyRPY", "cslibs_ndt_3d/include/cslibs_ndt_3d/matching/nlopt/gridmap_function.hpp:applyQuaternion", "cslibs_ndt_2d/include/cslibs_ndt_2d/matching/alglib/gridmap_function.hpp:apply", "cslibs_ndt_3d/include/cslibs_ndt_3d/matching/alglib/gridmap_function.hpp:applyRPY", "cslibs_ndt_3d/include/cslibs_ndt_3d/matching/alglib/gridmap_function.hpp:applyQuaternion"]}
{"id": "C125", "title": "A matching problem has a best pose", "statement": "Create a 2D matching problem on a static map, for ceres, nlopt or alglib. There is a pose whose cost is not higher than that of any other pose, so that the solver has something to find, whatever the map, the scan, the prior pose and the weights; the rotation of a best pose can be chosen within half a turn of the prior.", "quantifier": "all histories of static NDT and occupancy maps, all densities, scans, prior poses and weights, with and without interpolation, all poses", "why_tests_cant": "a best pose is a statement about a continuum of poses; a solver that is run in a test always returns some pose, also if there is no best one", "anchors": ["cslibs_ndt/include/cslibs_ndt/matching/ceres/problem.hpp:Problem2d", "cslibs_ndt_2d/include/cslibs_ndt_2d/matching/ceres/map/gridmap_cost_functor.hpp:ScanMatchCostFunctor<..., Flag::INTERPOLATION>", "cslibs_ndt_2d/include/cslibs_ndt_2d/matching/ceres/map/gridmap_cost_functor.hpp:ScanMatchCostFunctor<..., Flag::DIRECT>", "cslibs_ndt_2d/include/cslibs_ndt_2d/matching/ceres/map/occupancy_gridmap_cost_functor.hpp:ScanMatchCostFunctor<..., Flag::INTERPOLATION>", "cslibs_ndt_2d/include/cslibs_ndt_2d/matching/nlopt/gridmap_function.hpp:apply", "cslibs_ndt_2d/include/cslibs_ndt_2d/matching/alglib/gridmap_function.hpp:apply"]}
{"id": "C126", "title": "The costs and scores of scan matching keep their meaning in floating point", "statement": "Match with ceres, nlopt or alglib. Every scan residual that ceres gets is exact up to four roundings, every residual that alglib gets up to three. The cost that nlopt gets is the exact cost up to a relative error that grows with the number of scan points only (in double below 10^-9 for a million points), never reverses the order of two maps of which one fits every point at least as well, and the score that is reported with the result (nlopt on NDT maps, alglib on all maps) is the mean score of the points up to an error of that size (nlopt: times one plus twice the ratio of the prior terms to the map weight). A result of nlopt that is not worse than the initial guess, as computed, lies within the limits that the weights give (C124), up to a factor that does not depend on the number of points.", "quantifier": "all scans, poses, initial guesses, weights that are not negative and maps with scores between 0 and 1; all monotone roundings with a relative error, among them double; every hypot of the library that is correct up to a number of roundings; 2D and 3D NDT and occupancy maps, Euler angles and (nlopt, without the limits of C124) quaternions", "why_tests_cant": "rounding errors differ with every input, and the bound is about the worst case over all of them", "anchors": ["cslibs_ndt_2d/include/cslibs_ndt_2d/matching/nlopt/gridmap_function.hpp:apply, mapScore", "cslibs_ndt_2d/include/cslibs_ndt_2d/matching/nlopt/occupancy_gridmap_function.hpp:apply", "cslibs_ndt_3d/include/cslibs_ndt_3d/matching/nlopt/gridmap_function.hpp:hypot, applyRPY, mapScoreRPY, applyQuaternion, mapScoreQuaternion", "cslibs_ndt_3d/include/cslibs_ndt_3d/matching/nlopt/occupancy_gridmap_function.hpp:applyRPY, applyQuaternion", "cslibs_ndt_2d/include/cslibs_ndt_2d/matching/alglib/gridmap_function.hpp:apply, mapScore", "cslibs_ndt_3d/include/cslibs_ndt_3d/matching/alglib/gridmap_function.hpp:applyRPY, mapScoreRPY", "cslibs_ndt/include/cslibs_ndt/matching/ceres/map/scan_match_cost_functor_creator.hpp:CreateAutoDiffCostFunction, CreateNumericDiffCostFunction"]}
{"id": "C127", "title": "The balance between map and prior does not depend on how dense the scan is", "statement": "Match a scan, and match a scan with the same points in the same proportions, in any order (say every point twice): the cost of every pose is the same, so that the weights of the map and of the priors keep their meaning whatever the number of points, and neither the order of two poses nor the best pose changes. (False for alglib and for nlopt on 2D occupancy maps: there the weight of the points is inversely proportional to their number.)", "quantifier": "all scans and all scans with the same proportions, poses, priors, weights and maps; 2D, Euler angles and quaternions", "why_tests_cant": "the claim compares all pairs of scans, of any number of points, at all poses", "anchors": ["cslibs_ndt/include/cslibs_ndt/matching/ceres/problem.hpp:Problem2d, Problem3dQuaternion, Problem3dRPY", "cslibs_ndt/include/cslibs_ndt/matching/ceres/map/scan_match_cost_functor_creator.hpp", "cslibs_ndt_2d/include/cslibs_ndt_2d/matching/nlopt/gridmap_function.hpp:apply", "cslibs_ndt_2d/include/cslibs_ndt_2d/matching/nlopt/occupancy_gridmap_function.hpp:apply", "cslibs_ndt_3d/include/cslibs_ndt_3d/matching/nlopt/gridmap_function.hpp:applyRPY, applyQuaternion", "cslibs_ndt_2d/include/cslibs_ndt_2d/matching/alglib/gridmap_function.hpp:apply", "cslibs_ndt_3d/include/cslibs_ndt_3d/matching/alglib/gridmap_function.hpp:applyRPY, applyQuaternion"]}
{"id": "C128", "title": "Wrong points of a scan count with their share only", "statement": "Match a scan of which a share of the points is wrong (reflections, moving objects, noise), wherever these points lie. The cost of every pose differs from the cost with the right points by at most that share of the map weight (nlopt; half of the squared map weight with ceres, the squared map weight over the number of points with alglib), the reported score by at most that share, and a pose that is best with the wrong points is best up to twice that with the right ones (nlopt, ceres).", "quantifier": "all scans and all scans that agree with them up to a share of points, in any order; poses, priors, weights that are not negative, maps with values between 0 and 1 (C124); ceres, nlopt and alglib, 2D, Euler angles and quaternions; the same number of points for alglib and for nlopt on 2D occupancy maps", "why_tests_cant": "wrong points can lie anywhere and be any number", "anchors": ["cslibs_ndt/include/cslibs_ndt/matching/ceres/problem.hpp:Problem2d, Problem3dQuaternion, Problem3dRPY", "cslibs_ndt/include/cslibs_ndt/matching/ceres/map/scan_match_cost_functor_creator.hpp", "cslibs_ndt_2d/include/cslibs_ndt_2d/matching/nlopt/gridmap_function.hpp:apply, mapScore", "cslibs_ndt_2d/include/cslibs_ndt_2d/matching/nlopt/occupancy_gridmap_function.hpp:apply", "cslibs_ndt_3d/include/cslibs_ndt_3d/matching/nlopt/gridmap_function.hpp:applyRPY, applyQuaternion", "cslibs_ndt_3d/include/cslibs_ndt_3d/matching/nlopt/occupancy_gridmap_function.hpp:applyRPY, applyQuaternion", "cslibs_ndt_2d/include/cslibs_ndt_2d/matching/alglib/gridmap_function.hpp:apply, mapScore", "cslibs_ndt_3d/include/cslibs_ndt_3d/matching/alglib/gridmap_function.hpp:applyRPY, applyQuaternion"]}
{"id": "C129", "title": "Where the map knows nothing, matching keeps the initial guess", "statement": "Match a scan at a place where the map has no evidence within the limits that the weights give (C124). No pose is better than the initial guess, and a pose that is as good has the same translation and the same angles: noise cannot pull the pose away. (False with quaternions: there every rotation is as good as the one of the guess.)", "quantifier": "all scans, guesses, positive weights of the priors, and maps that return no score for any point of the scan at any pose within the limits; ceres, nlopt and alglib, 2D and Euler angles", "why_tests_cant": "the claim compares the guess with all poses, on all maps", "anchors": ["cslibs_ndt/include/cslibs_ndt/matching/ceres/problem.hpp:Problem2d, Problem3dQuaternion, Problem3dRPY", "cslibs_ndt_2d/include/cslibs_ndt_2d/matching/nlopt/gridmap_function.hpp:apply", "cslibs_ndt_2d/include/cslibs_ndt_2d/matching/nlopt/occupancy_gridmap_function.hpp:apply", "cslibs_ndt_3d/include/cslibs_ndt_3d/matching/nlopt/gridmap_function.hpp:applyRPY", "cslibs_ndt_3d/include/cslibs_ndt_3d/matching/nlopt/occupancy_gridmap_function.hpp:applyRPY", "cslibs_ndt_2d/include/cslibs_ndt_2d/matching/alglib/gridmap_function.hpp:apply", "cslibs_ndt_3d/include/cslibs_ndt_3d/matching/alglib/gridmap_function.hpp:applyRPY, applyQuaternion"]}
{"id": "C130", "title": "The score of a match tells how much of the scan fits", "statement": "Match and look at the reported score. It is between 0 and 1. It is 0 exactly if no point of the scan gets a score from the map, and 1 exactly if every point gets the score 1. A good score means that most points fit, and a bad one that most do not: for every threshold t, at most the share score / t of the points reaches t, and at most the share (1 - score) / (1 - t) does not. (False for nlopt on occupancy maps: there a scan that meets the map nowhere gets the perfect score in 3D, and nearly in 2D.)", "quantifier": "all scans, poses, guesses, weights and maps with scores between 0 and 1 (C124), all thresholds; nlopt on NDT maps, alglib on all maps; 2D, Euler angles and quaternions", "why_tests_cant": "the meaning of the score is a statement about all scans and all maps", "anchors": ["cslibs_ndt_2d/include/cslibs_ndt_2d/matching/nlopt/gridmap_function.hpp:mapScore", "cslibs_ndt_2d/include/cslibs_ndt_2d/matching/nlopt/occupancy_gridmap_function.hpp:mapScore", "cslibs_ndt_3d/include/cslibs_ndt_3d/matching/nlopt/gridmap_function.hpp:mapScoreRPY, mapScoreQuaternion", "cslibs_ndt_3d/include/cslibs_ndt_3d/matching/nlopt/occupancy_gridmap_function.hpp:mapScoreRPY, mapScoreQuaternion", "cslibs_ndt_2d/include/cslibs_ndt_2d/matching/alglib/gridmap_function.hpp:mapScore", "cslibs_ndt_3d/include/cslibs_ndt_3d/matching/alglib/gridmap_function.hpp:mapScoreRPY, mapScoreQuaternion"]}
{"id": "C131", "title": "What is mapped elsewhere does not change a match", "statement": "Match a scan, then insert further points or scans into the map that are far from where the scan can be placed, and match again: the best poses and their costs are the same. Far means: the map gives the same scores at the poses within the limits of the weights (C124). In NDT maps this holds if the new points are one resolution away from the moved points of the scan; in 2D it is enough that they are farther from the initial guess than the reach of the scan plus map weight / translation weight plus one resolution. In occupancy maps no bundle touched by the new hits and rays may be equal or adjacent to the bundle of a moved point.", "quantifier": "all maps, histories, inserted clouds and scans, scans to match, guesses and weights; ceres, nlopt and alglib, NDT and occupancy maps, 2D, Euler angles and quaternions", "why_tests_cant": "the result of matching depends on the costs of infinitely many poses, and the claim is about all maps and all insertions", "anchors": ["cslibs_ndt/include/cslibs_ndt/matching/ceres/problem.hpp:Problem", "cslibs_ndt_2d/include/cslibs_ndt_2d/matching/nlopt/gridmap_function.hpp:apply", "cslibs_ndt_2d/include/cslibs_ndt_2d/matching/nlopt/occupancy_gridmap_function.hpp:apply", "cslibs_ndt_3d/include/cslibs_ndt_3d/matching/nlopt/gridmap_function.hpp:applyRPY, applyQuaternion", "cslibs_ndt_3d/include/cslibs_ndt_3d/matching/nlopt/occupancy_gridmap_function.hpp:applyRPY, applyQuaternion", "cslibs_ndt_2d/include/cslibs_ndt_2d/matching/alglib/gridmap_function.hpp:apply", "cslibs_ndt_3d/include/cslibs_ndt_3d/matching/alglib/gridmap_function.hpp:applyRPY, applyQuaternion", "cslibs_ndt/include/cslibs_ndt/map/abstract_map.hpp:getAllocate"]}
{"id": "C132", "title": "Small differences between maps make small differences between the costs", "statement": "Match the same scan in two maps whose scores differ by at most e everywhere (the same map loaded from a file with rounded values, a map with one more scan in it, a map sampled with rounding errors). At every pose, the costs differ by at most e plus the smallest normal number (below which a score counts as lost), times the map weight (or its square), and the reported scores by at most e plus that number. So a best pose in one map is nearly best in the other. Rounding errors of a sample without interpolation contribute about (2^d + 1) 2^-t to e (t = 24 for float, 53 for double), where the bundle of the point is computed correctly. (False for nlopt on 3D occupancy maps: there a point whose score drops below the smallest normal number is skipped, so that an arbitrarily small difference between two maps changes the cost by nearly the map weight.)", "quantifier": "all scans, poses, guesses and weights, all pairs of maps with scores between 0 and 1 (C124), all e >= 0; nlopt on NDT maps and on 2D occupancy maps, alglib, ceres; 2D, Euler angles and quaternions", "why_tests_cant": "continuity in the map is a statement about all pairs of maps and all poses", "anchors": ["cslibs_ndt_2d/include/cslibs_ndt_2d/matching/nlopt/gridmap_function.hpp:apply, mapScore", "cslibs_ndt_3d/include/cslibs_ndt_3d/matching/nlopt/gridmap_function.hpp:applyRPY, applyQuaternion, mapScoreRPY, mapScoreQuaternion", "cslibs_ndt_2d/include/cslibs_ndt_2d/matching/nlopt/occupancy_gridmap_function.hpp:apply", "cslibs_ndt_3d/include/cslibs_ndt_3d/matching/nlopt/occupancy_gridmap_function.hpp:applyRPY, applyQuaternion", "cslibs_ndt_2d/include/cslibs_ndt_2d/matching/alglib/gridmap_function.hpp:apply", "cslibs_ndt_3d/include/cslibs_ndt_3d/matching/alglib/gridmap_function.hpp:applyRPY, applyQuaternion", "cslibs_ndt/include/cslibs_ndt/matching/ceres/problem.hpp:Problem"]}
{"id": "C133", "title": "The weights of a matching problem can be tuned one by one", "statement": "Only the ratios of the weights matter: multiplying all weights by the same positive number leaves the order of all poses, the best poses and the reported scores as they are. A higher map weight cannot make the fit of the best pose worse, nor the best pose closer to the initial guess (distance and angle as weighted by the solver); with nlopt on NDT maps and 3D occupancy maps the fit is the reported score, with alglib, ceres and nlopt on 2D occupancy maps the mean squared loss of the points. A higher translation weight cannot move the best pose of nlopt and alglib farther away, a higher rotation weight cannot turn it farther (with alglib in 2D and with Euler angles). (False of the score reported with alglib, which minimises squared losses but reports the mean score: there a higher map weight can make the score of the best pose worse.)", "quantifier": "all maps, scans, guesses and weights, all best poses; nlopt and alglib: 2D, Euler angles and quaternions; ceres: 2D, Euler angles and unit quaternions, maps with values", "why_tests_cant": "the best pose is the minimum over infinitely many poses, and the claim compares the minima of two problems for all maps", "anchors": ["cslibs_ndt_2d/include/cslibs_ndt_2d/matching/nlopt/gridmap_function.hpp:apply, mapScore", "cslibs_ndt_3d/include/cslibs_ndt_3d/matching/nlopt/gridmap_function.hpp:applyRPY, applyQuaternion, mapScoreRPY, mapScoreQuaternion", "cslibs_ndt_2d/include/cslibs_ndt_2d/matching/nlopt/occupancy_gridmap_function.hpp:apply, mapScore", "cslibs_ndt_3d/include/cslibs_ndt_3d/matching/nlopt/occupancy_gridmap_function.hpp:applyRPY, applyQuaternion, mapScoreRPY, mapScoreQuaternion", "cslibs_ndt_2d/include/cslibs_ndt_2d/matching/alglib/gridmap_function.hpp:apply, mapScore", "cslibs_ndt_3d/include/cslibs_ndt_3d/matching/alglib/gridmap_function.hpp:applyRPY, applyQuaternion, mapScoreRPY, mapScoreQuaternion", "cslibs_ndt/include/cslibs_ndt/matching/ceres/problem.hpp:Problem"]}
{"id": "C134", "title": "A scan can be matched in parts", "statement": "When a scan is split into two non-empty parts, the cost of the scan at a pose is the mean of the costs of the parts, weighted with their numbers of points, and so is the reported score. So a pose that is best for both parts is best for the scan. (True of nlopt on NDT maps and 3D occupancy maps and of ceres; the scores also with alglib. False of the costs of alglib and of nlopt on 2D occupancy maps: a pose can be best for both parts and not for the scan.)", "quantifier": "all maps, scans, splits, guesses, weights and poses; nlopt and alglib: 2D, Euler angles and quaternions; ceres: 2D, Euler angles and unit quaternions, maps with values", "why_tests_cant": "the claim is about the best among infinitely many poses, for every map and every split", "anchors": ["cslibs_ndt_2d/include/cslibs_ndt_2d/matching/nlopt/gridmap_function.hpp:apply, mapScore", "cslibs_ndt_3d/include/cslibs_ndt_3d/matching/nlopt/gridmap_function.hpp:applyRPY, applyQuaternion, mapScoreRPY, mapScoreQuaternion", "cslibs_ndt_2d/include/cslibs_ndt_2d/matching/nlopt/occupancy_gridmap_function.hpp:apply", "cslibs_ndt_3d/include/cslibs_ndt_3d/matching/nlopt/occupancy_gridmap_function.hpp:applyRPY, applyQuaternion", "cslibs_ndt_2d/include/cslibs_ndt_2d/matching/alglib/gridmap_function.hpp:apply, mapScore", "cslibs_ndt_3d/include/cslibs_ndt_3d/matching/alglib/gridmap_function.hpp:applyRPY, applyQuaternion, mapScoreRPY, mapScoreQuaternion", "cslibs_ndt/include/cslibs_ndt/matching/ceres/problem.hpp:Problem"]}
