{
 "claims": [
  {
   "property": "C01",
   "status": "proved",
   "theorems": [
    "Ndt.C01_point_in_selected_cell",
    "Ndt.C01_selected_cell_floor",
    "Ndt.C01_bundle_contains_point"
   ],
   "note": "Exact arithmetic over any linear ordered field with floor (assumption A2)."
  },
  {
   "property": "C02",
   "status": "proved",
   "theorems": [
    "Ndt.C02_sharing_block",
    "Ndt.C02_sharing_count",
    "Ndt.C02_neighbours_share_iff",
    "Ndt.C02_neighbours_share_count"
   ],
   "note": ""
  },
  {
   "property": "C03",
   "status": "proved",
   "theorems": [
    "Ndt.C03_integer_sequence",
    "Ndt.C03_apply_indices",
    "Ndt.C03_generate_indices",
    "Ndt.C03_for_each",
    "Ndt.C03_merge"
   ],
   "note": ""
  },
  {
   "property": "C04",
   "status": "proved",
   "theorems": [
    "Ndt.C04_machine_arithmetic_exact",
    "Ndt.C04_machine_refines_model"
   ],
   "note": "32-bit two's complement arithmetic, no overflow for any input, INT_MIN and INT_MAX included."
  },
  {
   "property": "C05",
   "status": "proved",
   "theorems": [
    "Ndt.C05_octree_refines_finite_map",
    "Ndt.C05_octree_get_none_iff"
   ],
   "note": ""
  },
  {
   "property": "C06",
   "status": "partial",
   "theorems": [
    "Ndt.C06_octree_alias_refuted",
    "Ndt.C06_octree_keys_partial",
    "Ndt.C06_octree_inrange_partial",
    "Ndt.C06_traverse_first_index_partial"
   ],
   "note": "The property is false of the code: indices alias modulo 2^16 (refuted with a witness). Proved: the exact aliasing relation, that no two in-range indices are confused, and what traverse reports for any history."
  },
  {
   "property": "C07",
   "status": "proved",
   "theorems": [
    "Ndt.C07_traverse_complete",
    "Ndt.C07_traverse_once",
    "Ndt.C07_traverse_order_canonical"
   ],
   "note": ""
  },
  {
   "property": "C08",
   "status": "partial",
   "theorems": [
    "Ndt.C08_size_refuted",
    "Ndt.C08_size_is_node_count_partial",
    "Ndt.C08_size_grows_iff_new_partial"
   ],
   "note": "The property is false of the code: size() counts tree nodes, on top of an uninitialised counter (refuted). Proved: the exact value and its monotonicity."
  },
  {
   "property": "C09",
   "status": "proved",
   "theorems": [
    "Ndt.C09_byte_size",
    "Ndt.C09_node_bound"
   ],
   "note": ""
  },
  {
   "property": "C10",
   "status": "proved",
   "theorems": [
    "Ndt.C10_contents_exact",
    "Ndt.C10_bundle_contents"
   ],
   "note": "Histories of insert, lookups, allocations and expansions on dynamic and static maps; distributions are multisets of points (A1), exact coordinates (A2). For dynamic maps the history must stay in the octree's index range (see C51)."
  },
  {
   "property": "C11",
   "status": "proved",
   "theorems": [
    "Ndt.C11_mass_per_grid",
    "Ndt.C11_point_once_per_grid"
   ],
   "note": ""
  },
  {
   "property": "C12",
   "status": "proved",
   "theorems": [
    "Ndt.C12_only_points_matter",
    "Ndt.C12_order_irrelevant",
    "Ndt.C12_batching_irrelevant"
   ],
   "note": ""
  },
  {
   "property": "C13",
   "status": "proved",
   "theorems": [
    "Ndt.C13_bounds_tight",
    "Ndt.C13_empty_iff",
    "Ndt.C13_points_in_bounds",
    "Ndt.C13_bounds_tight_any",
    "Ndt.C13_empty_iff_any",
    "Ndt.C13_hits_in_bounds",
    "Ndt.C13_weighted_hits_in_bounds"
   ],
   "note": "Under A3 (componentwise std::min/std::max)."
  },
  {
   "property": "C14",
   "status": "proved",
   "theorems": [
    "Ndt.C14_allocation_local_idempotent",
    "Ndt.C14_get_pure",
    "Ndt.C14_allocation_local_idempotent_any"
   ],
   "note": "Sampling is a pure function of the state in the model."
  },
  {
   "property": "C15",
   "status": "proved",
   "theorems": [
    "Ndt.C15_bundles_complete",
    "Ndt.C15_sharing_iff",
    "Ndt.C15_update_never_null",
    "Ndt.C15_bundles_any"
   ],
   "note": ""
  },
  {
   "property": "C16",
   "status": "proved",
   "theorems": [
    "Ndt.C16_static_in_bounds",
    "Ndt.C16_static_occupancy_in_bounds"
   ],
   "note": "Array bounds violations are the outcome none of the model (A4); no history reaches it."
  },
  {
   "property": "C17",
   "status": "partial",
   "theorems": [
    "Ndt.C17_static_accepts_refuted",
    "Ndt.C17_static_accepts_partial"
   ],
   "note": "The property is false of the code on every static map (refuted): the last row of bundles is rejected. Proved: the exact accepted region."
  },
  {
   "property": "C18",
   "status": "proved",
   "theorems": [
    "Ndt.C18_expand_keeps_contents",
    "Ndt.C18_expand_allocates_exactly",
    "Ndt.C18_expand_fixpoint",
    "Ndt.C18_expand_any"
   ],
   "note": ""
  },
  {
   "property": "C19",
   "status": "partial",
   "theorems": [
    "Ndt.C19_expand_idempotent_refuted",
    "Ndt.C19_third_call_partial"
   ],
   "note": "The property is false of the code (refuted): the second call can allocate more. Proved: from the third call on nothing changes."
  },
  {
   "property": "C51",
   "status": "proved",
   "theorems": [
    "Ndt.C51_dynamic_in_range",
    "Ndt.C51_occupancy_in_range",
    "Ndt.C51_weighted_in_range"
   ],
   "note": ""
  },
  {
   "property": "C20",
   "status": "partial",
   "theorems": [
    "Ndt.C20_copy_independent_refuted",
    "Ndt.C20_dynamic_copy_aliases_refuted",
    "Ndt.C20_static_copy_independent_refuted",
    "Ndt.C20_copy_equal_dynamic_partial",
    "Ndt.C20_copy_of_new_independent_partial",
    "Ndt.C20_static_writes_through_refuted",
    "Ndt.C20_occupancy_writes_through_refuted",
    "Ndt.C20_occupancy_aliases_refuted",
    "Ndt.C20_occupancy_copy_of_new_partial"
   ],
   "note": "The property is false of the code (refuted): a copied dynamic map shares its octree nodes with the original and a copied static map shares its distributions. Proved: the copy starts out equal, and copies of maps that are still empty stay independent."
  },
  {
   "property": "C21",
   "status": "proved",
   "theorems": [
    "Ndt.C21_counts",
    "Ndt.C21_order_irrelevant",
    "Ndt.C21_depends_only_on_counts",
    "Ndt.C21_range",
    "Ndt.C21_monotone",
    "Ndt.C21_hit_increases",
    "Ndt.C21_free_decreases",
    "Ndt.C21_weights",
    "Ndt.C21_weighted_order_irrelevant",
    "Ndt.C21_weighted_depends_only_on_weights",
    "Ndt.C21_weighted_range",
    "Ndt.C21_weighted_monotone",
    "Ndt.C21_empty_distribution_refuted"
   ],
   "note": "For histories that do not merge an empty distribution; C21_empty_distribution_refuted shows that this restriction (now part of the quantifier) is needed. Exact reals (A2), logarithmic odds as in A7."
  },
  {
   "property": "C22",
   "status": "proved",
   "theorems": [
    "Ndt.C22_occupancy_null_model",
    "Ndt.C22_sampling_null_model"
   ],
   "note": "Distributions and maps."
  },
  {
   "property": "C23",
   "status": "partial",
   "theorems": [
    "Ndt.C23_merge_refuted",
    "Ndt.C23_weighted_copy_refuted",
    "Ndt.C23_value_semantics_partial",
    "Ndt.C23_copies_independent_partial"
   ],
   "note": "The property is false of the code (refuted): merging into an object without distribution, and copying a weighted object, share the distribution. Proved: value semantics for every history without these operations."
  },
  {
   "property": "C24",
   "status": "proved",
   "theorems": [
    "Ndt.C24_sample_is_mean",
    "Ndt.C24_sample_in_unit_interval",
    "Ndt.C24_static_total",
    "Ndt.C24_dynamic_total",
    "Ndt.C24_occupancy_sample_is_mean",
    "Ndt.C24_occupancy_sample_in_unit_interval"
   ],
   "note": ""
  },
  {
   "property": "C25",
   "status": "proved",
   "theorems": [
    "Ndt.C25_partition_of_unity",
    "Ndt.C25_weight_is_hat",
    "Ndt.C25_between",
    "Ndt.C25_bilinear_sample",
    "Ndt.C25_bilinear_sample_between",
    "Ndt.C25_occupancy_bilinear_sample",
    "Ndt.C25_occupancy_bilinear_between"
   ],
   "note": ""
  },
  {
   "property": "C26",
   "status": "proved",
   "theorems": [
    "Ndt.C26_border_weights",
    "Ndt.C26_interpolation_continuous",
    "Ndt.C26_sample_continuous",
    "Ndt.C26_occupancy_continuous",
    "Ndt.C26_expanded_continuous",
    "Ndt.C26_expanded_any",
    "Ndt.C26_occupancy_expanded_continuous",
    "Ndt.C26_unallocated_jump"
   ],
   "note": "C26_unallocated_jump shows that the condition on the allocated bundles is needed: before the expansion the sampled value jumps to 0 at the border."
  },
  {
   "property": "C27",
   "status": "proved",
   "theorems": [
    "Ndt.C27_occupancy_counts",
    "Ndt.C27_weighted_counts",
    "Ndt.C27_no_empty_distribution",
    "Ndt.C27_samples_in_cell",
    "Ndt.C27_occupancy_value",
    "Ndt.C27_order_irrelevant",
    "Ndt.C27_occupancy_any_history",
    "Ndt.C27_weighted_any_history",
    "Ndt.C27_bounds_any_history",
    "Ndt.C27_value_any_history"
   ],
   "note": "Closed formulas for histories of insert, lookups, allocation and expansion; with insertVisible calls in between the counts are the sums of what each call records, which depends on the map at that time (C29). On weighted maps ray cells that are hit bundles of the scan do not count (C28)."
  },
  {
   "property": "C28",
   "status": "partial",
   "theorems": [
    "Ndt.C28_occupancy_insert_refuted",
    "Ndt.C28_weighted_hit_not_free",
    "Ndt.C28_occupancy_visible_hit_not_free",
    "Ndt.C28_weighted_visible_hit_not_free"
   ],
   "note": "Proved for weighted maps and for insertVisible of both classes. False of OccupancyGridmap::insert (refuted), which never removes hit bundles from the free updates."
  },
  {
   "property": "C29",
   "status": "partial",
   "theorems": [
    "Ndt.C29_independent_rays_refuted",
    "Ndt.C29_occupancy_outcome_partial",
    "Ndt.C29_weighted_outcome_partial",
    "Ndt.C29_occupancy_short_rays_partial",
    "Ndt.C29_weighted_short_rays_partial",
    "Ndt.C29_occupancy_one_bundle_partial",
    "Ndt.C29_weighted_one_bundle_partial",
    "Ndt.C29_occupancy_exact_partial",
    "Ndt.C29_weighted_exact_partial",
    "Ndt.C29_hit_bundles_order"
   ],
   "note": "The property is false of the code (refuted): an occluded ray aborts the whole call. Proved: what each call does on every reachable map, completeness for scans whose rays cannot be occluded, and the exact outcome (visibility formula, decisions in order, counts, allocated bundles) for every scan on every reachable map."
  },
  {
   "property": "C30",
   "status": "partial",
   "theorems": [
    "Ndt.C30_occupancy_fallback",
    "Ndt.C30_weighted_fallback_partial",
    "Ndt.C30_weighted_refuted"
   ],
   "note": "Proved for occupancy maps. False of weighted maps with a non-default line iterator (refuted)."
  },
  {
   "property": "C31",
   "status": "proved",
   "theorems": [
    "Ndt.C31_dynamic_roundtrip",
    "Ndt.C31_header_defined",
    "Ndt.C31_formats"
   ],
   "note": "For every execution of save (any interleaving, any split of the files into blocks), every schedule of load."
  },
  {
   "property": "C32",
   "status": "partial",
   "theorems": [
    "Ndt.C32_refuted",
    "Ndt.C32_weighted_loss_refuted",
    "Ndt.C32_records_read_partial",
    "Ndt.C32_lossless_iff_partial",
    "Ndt.C32_small_map_roundtrip_partial"
   ],
   "note": "The property is false of the code (refuted): the reader over-counts 8 bytes per record. Proved: exactly how many records survive, and losslessness iff 8n < R+8."
  },
  {
   "property": "C33",
   "status": "partial",
   "theorems": [
    "Ndt.C33_odd_minimum_refuted",
    "Ndt.C33_static_roundtrip_partial"
   ],
   "note": "The property is false of the code (refuted): for an odd minimum index and a bundle in the last row, storage 1 is loaded into an array that is too small. Proved: the round trip in exactly the remaining cases."
  },
  {
   "property": "C34",
   "status": "partial",
   "theorems": [
    "Ndt.C34_missing_file_partial",
    "Ndt.C34_never_rejected_refuted",
    "Ndt.C34_truncated_refuted"
   ],
   "note": "The property is false of the code (refuted): only missing files are detected. Proved: missing files are rejected."
  },
  {
   "property": "C35",
   "status": "partial",
   "theorems": [
    "Ndt.C35_lost_failure_refuted",
    "Ndt.C35_load_refuted",
    "Ndt.C35_success_reported_partial",
    "Ndt.C35_sequential_partial"
   ],
   "note": "The property is false of the code (refuted): the update of the shared flag is not atomic, a failure can be overwritten. Proved: no false failure; exact for schedules without overlap."
  },
  {
   "property": "C36",
   "status": "partial",
   "theorems": [
    "Ndt.C36_crash_refuted",
    "Ndt.C37_crash_states_partial",
    "Ndt.C37_after_crash_partial"
   ],
   "note": "The property is false of the code (refuted): the old directory is removed first. The reachable crash states, and what a load returns in each of them, are characterised."
  },
  {
   "property": "C37",
   "status": "partial",
   "theorems": [
    "Ndt.C37_crash_refuted",
    "Ndt.C37_torn_refuted",
    "Ndt.C37_crash_states_partial",
    "Ndt.C37_after_crash_partial",
    "Ndt.C37_record_boundaries_partial"
   ],
   "note": "The property is false of the code (refuted): truncated storage files are accepted, and an incomplete record is decoded from the bytes that are there. Proved: what every crash point leaves behind, and what a load returns then: it fails, or does what it did before, or is out of contract, or yields the bundles of the new map with every distribution missing or correct, apart from at most one torn one per storage."
  },
  {
   "property": "C52",
   "status": "partial",
   "theorems": [
    "Ndt.C52_empty_map_refuted",
    "Ndt.C52_nonempty_partial",
    "Ndt.C52_defined_iff"
   ],
   "note": "The property is false of the code (refuted): max - min overflows for the initial bounds. Proved: every non-empty map is fine."
  },
  {
   "property": "C38",
   "status": "proved",
   "theorems": [
    "Ndt.C38_dynamic_to_static",
    "Ndt.C38_copies"
   ],
   "note": "Non-empty maps; the empty map is C53."
  },
  {
   "property": "C39",
   "status": "proved",
   "theorems": [
    "Ndt.C39_to_dynamic",
    "Ndt.C39_roundtrip",
    "Ndt.C39_occupancy_roundtrip",
    "Ndt.C38_copies"
   ],
   "note": "A static source must have its bundle indices in the index range of the octree (A4)."
  },
  {
   "property": "C53",
   "status": "partial",
   "theorems": [
    "Ndt.C53_empty_conversion_refuted",
    "Ndt.C53_empty_raster_refuted",
    "Ndt.C53_empty_merge_refuted",
    "Ndt.C53_empty_to_dynamic_partial",
    "Ndt.St.C53_raster_iff",
    "Ndt.St.C53_raster_rounded_iff",
    "Ndt.St.C53_conversion_iff",
    "Ndt.Mono.C53_merge_iff"
   ],
   "note": "The property is false of the code (refuted): the size computation overflows for the initial bounds. Proved: conversion to a dynamic map, and every non-empty map (C38)."
  },
  {
   "property": "C40",
   "status": "partial",
   "theorems": [
    "Ndt.Mono.C40_out_of_range_refuted",
    "Ndt.Mono.C40_safe_points_partial"
   ],
   "note": "The property is false of the code (refuted): the upper bound is one cell too large. Proved: exactly the points of the proper area are safe."
  },
  {
   "property": "C41",
   "status": "proved",
   "theorems": [
    "Ndt.Mono.C41_stencil",
    "Ndt.Mono.C41_mass"
   ],
   "note": "Non-empty dynamic maps within the index range."
  },
  {
   "property": "C54",
   "status": "proved",
   "theorems": [
    "Ndt.Mono.C54_mono_contents",
    "Ndt.Mono.C54_mono_total",
    "Ndt.Mono.C54_mono_partition"
   ],
   "note": "For sequences of points inside of the proper area (see C40)."
  },
  {
   "property": "C55",
   "status": "partial",
   "theorems": [
    "Ndt.Mono.C55_merged_sample_partial",
    "Ndt.Mono.C55_frames_refuted"
   ],
   "note": "The property is false of the code for a non-trivial origin (refuted): the merged distributions are in map coordinates, but the sampled point is not transformed. Proved: what is evaluated, which is right for the identity origin."
  },
  {
   "property": "C42",
   "status": "proved",
   "theorems": [
    "Ndt.C42_safe",
    "Ndt.C42_cells"
   ],
   "note": "Non-empty maps of both kinds; a static map must have 2 * size representable as int."
  },
  {
   "property": "C43",
   "status": "partial",
   "theorems": [
    "Ndt.C43_mono",
    "Ndt.C43_ndt_partial",
    "Ndt.C43_finite_partial",
    "Ndt.C43_nan_refuted",
    "Ndt.C43_comparisons",
    "Ndt.C43_addition",
    "Ndt.C43_multiplication",
    "Ndt.C43_negation"
   ],
   "note": "Proved for single-resolution maps for all values, and for NDT maps for values in [0,1]. Refuted for NDT maps: NaN values are written to the grid."
  },
  {
   "property": "C56",
   "status": "partial",
   "theorems": [
    "Ndt.C56_position_refuted",
    "Ndt.C56_displacement_partial"
   ],
   "note": "The property is false of the code (refuted). Proved: the exact displacement, which is zero if the resolution divides (C42)."
  },
  {
   "property": "C57",
   "status": "partial",
   "theorems": [
    "Ndt.C57_rotated_refuted",
    "Ndt.C57_origin_partial"
   ],
   "note": "The property is false of the code for rotated origins (refuted). Proved: it holds exactly without rotation or with the minimum at the origin."
  },
  {
   "property": "C58",
   "status": "proved",
   "theorems": [
    "Ndt.C58_binary"
   ],
   "note": ""
  },
  {
   "property": "C59",
   "status": "proved",
   "theorems": [
    "Ndt.C59_likelihood_field"
   ],
   "note": "The distance transform is external: an arbitrary function."
  },
  {
   "property": "C44",
   "status": "proved",
   "theorems": [
    "Ndt.C44_angle_difference",
    "Ndt.C44_antisymmetric",
    "Ndt.C44_residuals"
   ],
   "note": "Exact reals; for all angles, not only normalised ones."
  },
  {
   "property": "C45",
   "status": "partial",
   "theorems": [
    "Ndt.C45_euler",
    "Ndt.C45_yaw_euler",
    "Ndt.C45_yaw_quat",
    "Ndt.C45_yaw_quat_rotation",
    "Ndt.C45_compose_partial",
    "Ndt.C45_compose_refuted"
   ],
   "note": "All proved except that quaternion steps compose additively, which is false of the code (refuted): a step is half-angle sine, not an angle. Proved instead: the angles 2 arcsin(step) add."
  },
  {
   "property": "C46",
   "status": "partial",
   "theorems": [
    "Ndt.C46_constant_refuted",
    "Ndt.C46_vector_part_partial"
   ],
   "note": "The property is false of the code (refuted): the cost is the same for all unit quaternions. Proved: the last three residuals alone have the property."
  },
  {
   "property": "C47",
   "status": "partial",
   "theorems": [
    "Ndt.C47_nan_refuted",
    "Ndt.C47_finite_partial"
   ],
   "note": "The property is false of the code (refuted): the test for NaN never fires for NaN. Proved: exactly when a residual is NaN."
  },
  {
   "property": "C48",
   "status": "partial",
   "theorems": [
    "Ndt.C48_nlopt",
    "Ndt.C48_alglib",
    "Ndt.C48_occupancy2_refuted",
    "Ndt.C48_occupancy2_partial",
    "Ndt.C48_occupancy3_refuted",
    "Ndt.C48_occupancy3_partial"
   ],
   "note": "Proved for NDT maps with nlopt and for all maps with alglib. False (refuted) for occupancy maps with nlopt, in 2D and in 3D; partial statements for these."
  },
  {
   "property": "C49",
   "status": "partial",
   "theorems": [
    "Ndt.C49_nlopt",
    "Ndt.C49_alglib",
    "Ndt.C49_occupancy3_refuted"
   ],
   "note": "Proved for all functions except 3D occupancy maps with nlopt, for which it is refuted."
  },
  {
   "property": "C60",
   "status": "partial",
   "theorems": [
    "Ndt.C60_clamped_refuted",
    "Ndt.C60_inside_partial",
    "Ndt.C60_iff_partial"
   ],
   "note": "The property is false of the code (refuted): angles are clamped, not wrapped. Proved: exactly when it holds."
  },
  {
   "property": "C61",
   "status": "proved",
   "theorems": [
    "Ndt.C61_yaw_only",
    "Ndt.C45_yaw_euler"
   ],
   "note": ""
  },
  {
   "property": "C62",
   "status": "proved",
   "theorems": [
    "Ndt.C62_gridmap",
    "Ndt.C62_occupancy"
   ],
   "note": "The density of a distribution is external: assumed to be its bell function if the distribution is valid, 0 otherwise. Derivatives are not modelled."
  },
  {
   "property": "C63",
   "status": "proved",
   "theorems": [
    "Ndt.C63_rpy",
    "Ndt.C63_rigid"
   ],
   "note": ""
  },
  {
   "property": "C64",
   "status": "proved",
   "theorems": [
    "Ndt.C64_mean_square",
    "Ndt.C64_permutation"
   ],
   "note": ""
  },
  {
   "property": "C65",
   "status": "partial",
   "theorems": [
    "Ndt.C65_nlopt",
    "Ndt.C65_occupancy2",
    "Ndt.C65_alglib",
    "Ndt.C65_translation",
    "Ndt.C65_weights",
    "Ndt.C44_residuals",
    "Ndt.C65_nlopt_quat_refuted",
    "Ndt.C65_alglib_quat_partial",
    "Ndt.C65_alglib_quat_rotation_partial",
    "Ndt.C65_alglib_quat_refuted"
   ],
   "note": "Proved except for the quaternion variants of nlopt and alglib, for which it is refuted."
  },
  {
   "property": "C50",
   "status": "proved",
   "theorems": [
    "Ndt.C50_box_query"
   ],
   "note": "All dimensions at least 1."
  },
  {
   "property": "C66",
   "status": "partial",
   "theorems": [
    "Ndt.C66_line_query_refuted",
    "Ndt.C66_line_query_partial"
   ],
   "note": "The property is false of the code (refuted): the direction of the difference is reversed and the parameter is not normalised. Proved: the exact result, at most the first index."
  },
  {
   "property": "C67",
   "status": "partial",
   "theorems": [
    "Ndt.C67_only_between_refuted",
    "Ndt.C67_occupancy_local_partial",
    "Ndt.C67_weighted_local_partial",
    "Ndt.C67_occupancy_all_scans_partial",
    "Ndt.C67_weighted_all_scans_partial"
   ],
   "note": "The property is false of the code (refuted): for a bundle that shares a coordinate with the origin, the neighbour tested on that axis is beside or behind it. Proved: the decision depends on the tested neighbours only, for scans with any number of hit bundles."
  },
  {
   "property": "C68",
   "status": "partial",
   "theorems": [
    "Ndt.C68_visible_state",
    "Ndt.C68_visible_state_occupancy",
    "Ndt.C68_loaded",
    "Ndt.C68_loaded_occupancy",
    "Ndt.C68_converted",
    "Ndt.C68_converted_occupancy",
    "Ndt.C68_loaded_static_partial",
    "Ndt.C68_loaded_static_occupancy_partial",
    "Ndt.C68_loaded_static_refuted"
   ],
   "note": "Proved for all kinds of maps with equal visible states, for saved and loaded dynamic maps, and for converted maps. False of the code for loaded static maps whose minimum index is odd in the first dimension (refuted with a witness); the static theorems decide for every later history whether it is defined on the loaded map, and show that its results are then the same."
  },
  {
   "property": "C69",
   "status": "partial",
   "theorems": [
    "Ndt.C69_cloud_occupancy",
    "Ndt.C69_cloud_ndt_partial",
    "Ndt.C69_empty_distributions_refuted"
   ],
   "note": "Proved for occupancy maps. Refuted for NDT maps: allocated distributions without points are exported at the map origin; proved for them: one point per allocated distribution."
  },
  {
   "property": "C70",
   "status": "partial",
   "theorems": [
    "Ndt.C70_layout_partial",
    "Ndt.C70_field_count_refuted"
   ],
   "note": "The property is false of the code (refuted): the element count of every field is the number of points. Proved: everything else, for fewer than 2^28 points."
  },
  {
   "property": "C71",
   "status": "proved",
   "theorems": [
    "Ndt.C71_markers_ndt",
    "Ndt.C71_markers_occupancy",
    "Ndt.C71_scale",
    "Ndt.C71_geometry",
    "Ndt.C71_scale_all"
   ],
   "note": ""
  },
  {
   "property": "C72",
   "status": "partial",
   "theorems": [
    "Ndt.C72_dynamic_partial",
    "Ndt.C72_static_partial",
    "Ndt.C72_static_refuted",
    "Ndt.C72_dynamic_size_refuted",
    "Ndt.C72_empty_refuted",
    "Ndt.St.C72_count_iff"
   ],
   "note": "The property is false of the code (refuted): getSizeM() of static maps is one resolution too large, getSize() of dynamic maps counts one bundle too few, and both are undefined for empty dynamic maps. Proved: everything else and the exact values."
  },
  {
   "property": "C73",
   "status": "proved",
   "theorems": [
    "Ndt.C73_validate",
    "Ndt.C73_occupancy_validate"
   ],
   "note": ""
  },
  {
   "property": "C74",
   "status": "proved",
   "theorems": [
    "Ndt.C74_yaw_only_quaternion",
    "Ndt.C74_yaw_only_rpy",
    "Ndt.C74_rigid",
    "Ndt.C74_translation_2d",
    "Ndt.C74_translation_quaternion",
    "Ndt.C74_translation_rpy"
   ],
   "note": "The solver is external: a run is any sequence of updates through the parameter blocks. SubsetParameterization and QuaternionParameterization of ceres are modelled by their documented formulas."
  },
  {
   "property": "C75",
   "status": "partial",
   "theorems": [
    "Ndt.C75_cost_2d",
    "Ndt.C75_cost_rpy",
    "Ndt.C75_priors_only",
    "Ndt.C75_cost_quaternion_partial",
    "Ndt.C75_quaternion_refuted"
   ],
   "note": "Proved for 2D and Euler angles. Refuted for quaternions: the rotation prior contributes a constant."
  },
  {
   "property": "C76",
   "status": "partial",
   "theorems": [
    "Ndt.C76_readers_partial",
    "Ndt.C76_writes_covered",
    "Ndt.C76_reads_covered",
    "Ndt.C76_alone",
    "Ndt.C76_alone_complete",
    "Ndt.C76_race_refuted",
    "Ndt.C76_race_bounds_refuted",
    "Ndt.C76_lost_bounds_refuted",
    "Ndt.C76_incomplete_refuted"
   ],
   "note": "The property is false of the code (refuted): the const lookup allocates missing bundles. Proved, for all threads, programs and schedules: it holds as long as no thread looks up a missing bundle; and a thread that runs alone behaves as in the sequential model."
  },
  {
   "property": "C77",
   "status": "partial",
   "theorems": [
    "Ndt.C77_stored_near_partial",
    "Ndt.C77_near_bundle",
    "Ndt.C77_near_cell",
    "Ndt.C77_exact_inside",
    "Ndt.C77_monotone",
    "Ndt.C77_adjacent",
    "Ndt.C77_overflow",
    "Ndt.C77_ieee",
    "Ndt.C77_half_exact",
    "Ndt.C77_epsilon",
    "Ndt.C77_exact_power_of_two",
    "Ndt.C77_contents",
    "Ndt.C77_mass",
    "Ndt.C77_lookup",
    "Ndt.C77_without_rounding",
    "Ndt.C77_exact_history",
    "Ndt.C77_exact_history_power_of_two",
    "Ndt.C77_exact_cell_refuted",
    "Ndt.C77_region_refuted"
   ],
   "note": "Exact containment is false of the code (refuted for float and resolution 0.1). Proved: containment up to a relative error below 2^-22 (float) and 2^-51 (double), exact for resolutions that are powers of two and for points away from borders, exactly one distribution per grid, monotone, and lookups agree with insertions; points beyond 2^31 bundles are undefined."
  },
  {
   "property": "C78",
   "status": "partial",
   "theorems": [
    "Ndt.C78_step_partial",
    "Ndt.C78_step_exact",
    "Ndt.C78_raster_partial",
    "Ndt.C78_small_integers",
    "Ndt.C78_sizes",
    "Ndt.C78_step_refuted",
    "Ndt.C78_position_refuted",
    "Ndt.C78_safe_refuted"
   ],
   "note": "The property is false of the code (refuted): in double, resolution 0.6 and sampling resolution 0.05 give 5 cells per bundle instead of 6, and the raster is shifted by one cell per bundle; in float, rasters of millions of cells can be one cell too narrow. Proved: n or n - 1 cells per bundle, n if the floats divide exactly; all writes inside of the raster up to three million (float) or 10^15 (double) cells per row (int overflow of the cell indices from 2^31 columns on is in C119); the exact place of every sampled value."
  },
  {
   "property": "C79",
   "status": "partial",
   "theorems": [
    "Ndt.C79_run",
    "Ndt.C79_defined",
    "Ndt.C79_resend",
    "Ndt.C79_float_refuted",
    "Ndt.C79_float_bundles_refuted",
    "Ndt.C79_message_refuted"
   ],
   "note": "Proved: which maps a node serves and what it publishes, for all results of loading. Refuted: a saved map of floats is never tried as such, because reading it as a map of doubles does not fail; the map so read has fewer bundles than the saved one. The message of success is printed even after a failure."
  },
  {
   "property": "C80",
   "status": "partial",
   "theorems": [
    "Ndt.C80_rgb_occupancy",
    "Ndt.C80_rgb_ndt_partial",
    "Ndt.C80_empty_distributions_refuted"
   ],
   "note": "Proved for occupancy maps. Refuted for NDT maps: empty distributions are exported at the origin of the map and widen the colour scale, as for C69; what holds is proved."
  },
  {
   "property": "C81",
   "status": "partial",
   "theorems": [
    "Ndt.C81_path_roundtrip",
    "Ndt.C81_yaml_partial",
    "Ndt.C81_yaml_static_partial",
    "Ndt.C81_same_file_partial",
    "Ndt.C81_yaml_throws_refuted",
    "Ndt.C81_yaml_ignored_refuted"
   ],
   "note": "Proved for binary headers. Refuted for YAML headers: the file is opened under path_root / (path_root / map.yaml), so that load throws an exception or reads the header of another directory, unless that path denotes the same file (the working directory given as \".\", or an absolute path with version 4 of the path library); for those cases the round trip is proved, also for empty maps."
  },
  {
   "property": "C82",
   "status": "proved",
   "theorems": [
    "Ndt.C82_dynamic",
    "Ndt.C82_static",
    "Ndt.C82_resave",
    "Ndt.C82_static_resave",
    "Ndt.C82_insertions"
   ],
   "note": "For dynamic and static maps; saving again for the maps that can be loaded (C31, C33). The consequence for insertions in another order (C82_insertions) is about exact sums: with floating-point sums the contents themselves may differ in the last bits."
  },
  {
   "property": "C83",
   "status": "partial",
   "theorems": [
    "Ndt.C83_nearest_unit",
    "Ndt.C83_nearest_error",
    "Ndt.C83_occupancy_unit",
    "Ndt.C83_weights_unit",
    "Ndt.C83_bilinear_error",
    "Ndt.C83_error_numbers",
    "Ndt.C83_bilinear_bounds_partial",
    "Ndt.C83_occupancy_bilinear_partial",
    "Ndt.C83_bilinear_float_refuted",
    "Ndt.C83_bilinear_double_refuted"
   ],
   "note": "Proved without interpolation. With interpolation the range is false of the code (refuted): densities that are all 1 give 1 + 2^-23 in a map of floats and 1 + 2^-52 in a map of doubles. Proved with interpolation: between the smallest and the largest density up to a relative error of 2^d + 2 d + 1 roundings, the absolute error against the exact interpolation, computed weights in [0, 1]."
  },
  {
   "property": "C84",
   "status": "partial",
   "theorems": [
    "Ndt.C84_copy_dangling_refuted",
    "Ndt.C84_dynamic_leak_refuted",
    "Ndt.C84_others_survive_partial",
    "Ndt.C84_static_released_partial",
    "Ndt.C84_dynamic_survive_partial",
    "Ndt.C84_occupancy_dangling_refuted",
    "Ndt.C84_occupancy_leak_refuted",
    "Ndt.C84_occupancy_others_survive_partial",
    "Ndt.C84_occupancy_released_partial"
   ],
   "note": "The property is false of the code (refuted): the bundles of a copied static map point to objects of the original and dangle after its destruction; octrees have no destructor and release nothing. Proved: exactly these bundles are affected, the original survives its copies, static maps release exactly what they allocated. That array storages copy and release their cells is assumption A4. C84_dynamic_survive_partial is immediate from the missing destructor."
  },
  {
   "property": "C85",
   "status": "partial",
   "theorems": [
    "Ndt.C85_same_cost_refuted",
    "Ndt.C85_unit_interval_refuted",
    "Ndt.C85_grid_points_partial",
    "Ndt.C85_differentiable",
    "Ndt.C85_static_defined",
    "Ndt.C85_dynamic_defined",
    "Ndt.C85_range_partial",
    "Ndt.C85_occupancy_partial",
    "Ndt.C85_occupancy_range_partial"
   ],
   "note": "False of the code (refuted): the evaluation without derivatives samples the map, the one with derivatives interpolates 16 samples, so the cost depends on whether derivatives are requested, and the interpolated cost can exceed 1. Proved: agreement at all multiples of the sampling resolution, continuity, the returned derivatives are the continuous partial derivatives everywhere, range [-9/32, 41/32], definedness. The formulas of ceres::BiCubicInterpolator are assumption A10."
  },
  {
   "property": "C86",
   "status": "partial",
   "theorems": [
    "Ndt.C86_static_move_refuted",
    "Ndt.C86_dynamic_alias_refuted",
    "Ndt.MonoPair.C86_mono_move_aliases_refuted",
    "Ndt.C86_dynamic_move_partial",
    "Ndt.MonoPair.C86_mono_copy_independent",
    "Ndt.MonoPair.C86_mono_move_partial",
    "Ndt.C86_occupancy_static_move_refuted",
    "Ndt.C86_occupancy_alias_refuted",
    "Ndt.C86_occupancy_dynamic_move_partial"
   ],
   "note": "False of the code (refuted): the move constructors pass the named parameter on as an lvalue and so copy, with the defects of copies (C20, C84): a moved static map refers to released objects once the source is destroyed, a moved dynamic map stays connected with its source, and a moved single-resolution map shares the storage with its source. Proved: moved dynamic and single-resolution maps keep their contents and behave like the source if the source is only destroyed; copies of single-resolution maps are independent."
  },
  {
   "property": "C87",
   "status": "partial",
   "theorems": [
    "Ndt.Mono.C87_indices",
    "Ndt.Mono.C87_corners",
    "Ndt.Mono.C87_get_partial",
    "Ndt.Mono.C87_origin_partial",
    "Ndt.Mono.C87_extent_refuted",
    "Ndt.Mono.C87_rotated_refuted"
   ],
   "note": "Proved: listed cells, corners and validate, get inside and outside. False of the code (refuted): the extent from getMin to getMax is one cell larger than getWidth and getHeight, and points in that extra row are accesses outside of the array (C40); getOrigin adds the corner without rotating it."
  },
  {
   "property": "C88",
   "status": "partial",
   "theorems": [
    "Ndt.C88_range",
    "Ndt.C88_hit_partial",
    "Ndt.C88_miss_partial",
    "Ndt.C88_error",
    "Ndt.C88_miss_refuted",
    "Ndt.Weights.C88_weighted_range",
    "Ndt.Weights.C88_weighted_miss_partial",
    "Ndt.Weights.C88_weighted_hit_partial",
    "Ndt.Weights.C88_weights_error",
    "Ndt.Weights.C88_weighted_error",
    "Ndt.Weights.C88_free_weight_partial",
    "Ndt.Weights.C88_lost_misses_refuted",
    "Ndt.Weights.C88_order_refuted"
   ],
   "note": "Range and error bounds hold for all models. Hits never lower the value for priors up to 1/2, misses never raise it for priors from 1/2 on; with the prior 0.3 a miss raises the occupancy of a distribution of floats from below 0.35 to above 0.45. Weights of floats stop counting at 2^24 and depend on the order."
  },
  {
   "property": "C89",
   "status": "proved",
   "theorems": [
    "Ndt.C89_byte_size",
    "Ndt.C89_same_bundles",
    "Ndt.C89_monotone",
    "Ndt.C89_linear",
    "Ndt.C89_occupancy",
    "Ndt.C89_insert_allocates",
    "Ndt.C89_only_hit_bundles",
    "Ndt.C89_revisit",
    "Ndt.C89_never_shrinks",
    "Ndt.C89_occupancy_scan_allocates",
    "Ndt.C89_weighted_scan_allocates",
    "Ndt.C89_occupancy_never_shrinks",
    "Ndt.C89_weighted_never_shrinks"
   ],
   "note": "Dynamic maps (octree storages); the arrays of static maps are part of cslibs_indexed_storage. What neighbourhood allocation adds is C18."
  },
  {
   "property": "C90",
   "status": "proved",
   "theorems": [
    "Ndt.C90_field_of_points",
    "Ndt.C90_same_points_same_field",
    "Ndt.C90_occupancy_field",
    "Ndt.C90_unexpanded_refuted"
   ],
   "note": "Whether a sample is defined (index range of dynamic maps) is C24/C51. C90_unexpanded_refuted shows that the allocation is needed."
  },
  {
   "property": "C91",
   "status": "proved",
   "theorems": [
    "Ndt.C91_world_frame",
    "Ndt.C91_occupancy_world_frame",
    "Ndt.C91_transformed_cloud"
   ],
   "note": "Exact arithmetic; the motion must preserve isNormal() of points (finite coordinates)."
  },
  {
   "property": "C92",
   "status": "proved",
   "theorems": [
    "Ndt.C92_lattice_shift",
    "Ndt.C92_contents",
    "Ndt.C92_samples",
    "Ndt.C92_occupancy_contents",
    "Ndt.C92_weighted_contents",
    "Ndt.C92_occupancy_samples",
    "Ndt.C92_weighted_samples",
    "Ndt.C92_occupancy_history",
    "Ndt.C92_weighted_history",
    "Ndt.C92_occupancy_history_samples",
    "Ndt.C92_weighted_history_samples"
   ],
   "note": "Exact arithmetic. The theorems named _history include insertVisible and allocations; they ask in addition that the occupancy model and the trigger of the neighbourhood allocation do not depend on the places of the hits."
  },
  {
   "property": "C93",
   "status": "partial",
   "theorems": [
    "Ndt.C93_stored_near_partial",
    "Ndt.C93_occupancy_counts",
    "Ndt.C93_weighted_counts",
    "Ndt.C93_nothing_invented",
    "Ndt.C93_exact_history",
    "Ndt.C93_exact_history_power_of_two",
    "Ndt.C93_static_never_fails",
    "Ndt.C93_exact_cell_refuted"
   ],
   "note": "Exact containment is false of the code (refuted for float and resolution 0.1, as C77). Proved: hits and misses are exact with respect to the computed bundles, stored points lie in their cells up to the relative error of C77, and histories away from borders or with resolutions that are powers of two run exactly as with exact arithmetic. The means of the points and the ray tracer are functions of the points of a bundle; the rounding inside of them has no influence on the theorems about hits."
  },
  {
   "property": "C94",
   "status": "partial",
   "theorems": [
    "Ndt.C94_repeat_partial",
    "Ndt.C94_third_conversion_partial",
    "Ndt.C94_second_conversion_partial",
    "Ndt.C94_nothing_to_convert",
    "Ndt.C94_source_kept",
    "Ndt.C94_defined",
    "Ndt.C94_cloud",
    "Ndt.C94_repeat_refuted",
    "Ndt.C94_cloud_without_model_refuted"
   ],
   "note": "Two parts are false of the code: with allocate_all and a default value other than 0 the second conversion differs from the first one, and the point cloud export throws for a null model after having extended the source. Proved: everything else, equality from the second conversion on, and equality of first and second one up to padding with zeros for the default value 0. The distance transform is an arbitrary function."
  },
  {
   "property": "C95",
   "status": "partial",
   "theorems": [
    "Ndt.C95_scan_order",
    "Ndt.C95_history_order",
    "Ndt.C95_only_totals_matter",
    "Ndt.C95_only_totals_matter_weighted",
    "Ndt.C95_pieces_partial",
    "Ndt.C95_any_pieces_partial",
    "Ndt.C95_disjoint_pieces_partial",
    "Ndt.C95_pieces_weighted_partial",
    "Ndt.C95_any_pieces_refuted",
    "Ndt.C95_disjoint_pieces_weighted_refuted",
    "Ndt.C95_visible_order_refuted"
   ],
   "note": "The order of plain scans does not matter (proved). Pieces give the same map as long as they trace the same rays (ray tracers that depend on the bundle of the end point, or pieces without common bundles); for weighted maps no ray may cross a bundle that only another piece hits. False of the code (refuted): arbitrary pieces (one ray to the mean of all points of a bundle), pieces of weighted maps (misses in hit bundles are dropped per call), order of visibility-aware insertions."
  },
  {
   "property": "C96",
   "status": "partial",
   "theorems": [
    "Ndt.C96_numbers",
    "Ndt.C96_ieee",
    "Ndt.C96_overflow",
    "Ndt.C96_members",
    "Ndt.C96_index",
    "Ndt.C96_special",
    "Ndt.C96_vanishing",
    "Ndt.C96_same_index_fine",
    "Ndt.C96_same_index_normal",
    "Ndt.C96_near_bundle",
    "Ndt.C96_monotone",
    "Ndt.C96_exact_power_of_two_partial",
    "Ndt.C96_contents",
    "Ndt.C96_mass",
    "Ndt.C96_stored_near",
    "Ndt.C96_history",
    "Ndt.C96_occupancy_history",
    "Ndt.C96_exact_refuted",
    "Ndt.C96_stored_exact_refuted"
   ],
   "note": "Full binary32 and binary64 formats. The index is the one without bounds on exponents (C77) except for negative coordinates whose product underflows to zero, which get index 0. Exact containment for powers of two is proved up to resolution 2; for all larger powers of two it is false of the code (refuted): the largest negative number gets index 0. Histories are those of C77 and C93 for resolutions up to 2, or up to 2^24 (float) and 2^53 (double) with coordinates that are zero or normal."
  },
  {
   "property": "C97",
   "status": "partial",
   "theorems": [
    "Ndt.C97_nan_iff",
    "Ndt.C97_value_partial",
    "Ndt.C97_prior",
    "Ndt.C97_prior_inverted",
    "Ndt.C97_weighted_nan_iff",
    "Ndt.C97_weighted_value_partial",
    "Ndt.C97_sample",
    "Ndt.C97_sample_numbers",
    "Ndt.C97_nan_refuted"
   ],
   "note": "Finite arithmetic is exact. False of the code (refuted): a model certain about misses gives NaN for every distribution with hits only (0 times infinity), a model certain about both that contradicts itself gives NaN, a prior of 0 or 1 gives NaN after one hit and the opposite of the prior afterwards; one NaN makes the sample NaN. Proved: exactly when the value is NaN for priors between 0 and 1, and the expected probability in all other cases."
  },
  {
   "property": "C98",
   "status": "proved",
   "theorems": [
    "Ndt.C98_conversions",
    "Ndt.C98_costs",
    "Ndt.C98_costs_occupancy",
    "Ndt.C98_merge",
    "Ndt.C98_grids",
    "Ndt.C98_markers",
    "Ndt.C98_markers_occupancy",
    "Ndt.C98_clouds",
    "Ndt.C98_clouds_occupancy",
    "Ndt.C98_allocate_all",
    "Ndt.C98_allocate_all_clouds",
    "Ndt.C98_allocate_all_clouds_occupancy",
    "Ndt.C98_loaded",
    "Ndt.C98_loaded_static",
    "Ndt.C98_loaded_grids",
    "Ndt.C98_loaded_clouds",
    "Ndt.C98_loaded_clouds_occupancy",
    "Ndt.C98_insertions",
    "Ndt.C98_insertions_clouds"
   ],
   "note": "For dynamic and static maps. Contents are compared exactly: distributions are the multisets of their points (A1), so rounding of their sums in another order of insertion is not covered."
  },
  {
   "property": "C99",
   "status": "proved",
   "theorems": [
    "Ndt.C99_share_iff_neighbours",
    "Ndt.C99_share_near",
    "Ndt.C99_insertions",
    "Ndt.C99_far_insertion",
    "Ndt.C99_expanded",
    "Ndt.C99_scans",
    "Ndt.C99_scans_weighted",
    "Ndt.C99_distance_needed"
   ],
   "note": "From any reachable map, and after neighbourhood allocation for maps of different classes and arbitrary histories; exact arithmetic. C99_distance_needed: a witness in which a point at 89/100 of the resolution does change the sample."
  },
  {
   "property": "C100",
   "status": "proved",
   "theorems": [
    "Ndt.C100_session",
    "Ndt.C100_session_continues",
    "Ndt.C100_session_occupancy",
    "Ndt.C100_session_occupancy_continues"
   ],
   "note": "Sessions are an inductive relation (Spec/Session.lean); sample_session runs through one with all kinds of stages. Weighted occupancy maps cannot be saved without loss (C32) and are not converted by the code; a copy replaces the original (for both being used, see C20); the empty map can neither be saved nor converted (C52, C53)."
  },
  {
   "property": "C101",
   "status": "partial",
   "theorems": [
    "Ndt.C101_ceres_2d",
    "Ndt.C101_ceres_quaternion",
    "Ndt.C101_ceres_rpy_partial",
    "Ndt.C101_functions_2d",
    "Ndt.C101_alglib_quaternion",
    "Ndt.C101_functions_rpy_partial",
    "Ndt.C101_best_pose",
    "Ndt.C101_maps",
    "Ndt.C101_nlopt_quaternion_partial",
    "Ndt.C101_rpy_refuted",
    "Ndt.C101_nlopt_quaternion_refuted"
   ],
   "note": "Proved for 2D poses and unit quaternions, for every function T of the world that moves map, guess and pose. False of the code with Euler angles (refuted): two parameter vectors of the same rotation have different costs; proved there for motions about the vertical axis. False also for nlopt with quaternions when the guess is a quaternion like the pose (refuted); proved there for guesses that hold Euler angles, motions about the vertical axis and poses without gimbal lock. Not covered: the path of the optimiser."
  },
  {
   "property": "C102",
   "status": "proved",
   "theorems": [
    "Ndt.C102_scan_2d",
    "Ndt.C102_scan_occupancy_2d",
    "Ndt.C102_scan_quaternion",
    "Ndt.C102_scan_occupancy_quaternion",
    "Ndt.C102_scan_rpy",
    "Ndt.C102_scan_occupancy_rpy",
    "Ndt.C102_rotation_2d",
    "Ndt.C102_rotation_rpy",
    "Ndt.C102_rotation_quaternion",
    "Ndt.C102_translation",
    "Ndt.C102_euler_plus",
    "Ndt.C102_yaw_only_euler_plus",
    "Ndt.C102_yaw_only_quaternion_plus",
    "Ndt.C102_cost_2d",
    "Ndt.C102_cost_rpy",
    "Ndt.C102_cost_quaternion",
    "Ndt.C102_cost_occupancy_2d",
    "Ndt.C102_cost_occupancy_rpy",
    "Ndt.C102_cost_occupancy_quaternion"
   ],
   "note": "ceres::Jet is external code, its arithmetic is written down in Model/Jet.lean. Exact reals. Assumed of the distributions: the density is exp(-1/2 (p-mean)^T inf (p-mean)) if valid, 0 otherwise, with a positive semidefinite information matrix, and occupancies are at most 1."
  },
  {
   "property": "C103",
   "status": "partial",
   "theorems": [
    "Ndt.C103_inside_partial",
    "Ndt.C103_same_bundle_partial",
    "Ndt.C103_jump_partial",
    "Ndt.C103_occupancy_jump_partial",
    "Ndt.C103_continuous_refuted"
   ],
   "note": "Refuted: at a border of bundles the value jumps, because half of the averaged distributions are exchanged, even if all bundles around are allocated and all densities are constant. Proved instead: continuity at every point on no border, no more variation inside a bundle than that of the densities, and at a border of k axes a jump of at most (1 - 2^-k) times the largest density, a bound that is attained. With interpolation the value is continuous (C26)."
  },
  {
   "property": "C104",
   "status": "proved",
   "theorems": [
    "Ndt.C104_index",
    "Ndt.C104_units",
    "Ndt.C104_samples",
    "Ndt.C104_occupancy_units",
    "Ndt.C104_flavours",
    "Ndt.C104_normal_density",
    "Ndt.C104_index_float",
    "Ndt.C104_units_float"
   ],
   "note": "Ray tracers and occupancies in the new unit are those of the old unit. For other units than powers of two rounding differs in floating point, which C77 bounds. No bounds on exponents in the floating-point theorems."
  },
  {
   "property": "C105",
   "status": "partial",
   "theorems": [
    "Ndt.C105_same_points_partial",
    "Ndt.C105_never_more_points",
    "Ndt.C105_misses_partial",
    "Ndt.C105_samples_partial",
    "Ndt.C105_occupancy_below_partial",
    "Ndt.C105_occupancies_partial",
    "Ndt.C105_misses_refuted",
    "Ndt.C105_not_normal_refuted",
    "Ndt.C105_unexpanded_refuted"
   ],
   "note": "False as stated, in three ways: only the weighted map ignores rays through bundles with hits of the scan, only the occupancy maps test points for being normal in the sensor frame, and rays allocate bundles that an NDT map does not allocate. Proved: the points are the same for clouds of normal points and never more otherwise; free weights and occupancies are ordered, and equal if rays avoid hit bundles; samples are ordered after neighbourhood allocation."
  },
  {
   "property": "C106",
   "status": "proved",
   "theorems": [
    "Ndt.C106_contents",
    "Ndt.C106_samples",
    "Ndt.C106_occupancy_contents",
    "Ndt.C106_weighted_contents",
    "Ndt.C106_normal_density",
    "Ndt.C106_mirror_refuted",
    "Ndt.C106_occupancy_samples",
    "Ndt.C106_weighted_samples",
    "Ndt.C106_occupancy_of_counts",
    "Ndt.C106_weighted_of_counts",
    "Ndt.C106_visible_refuted"
   ],
   "note": "Samples after neighbourhood allocation. For occupancy maps `insert` calls, with line iterators that treat the axes alike. Mirror images are not interchangeable, since cells are half open (`C106_mirror_refuted`). `insertVisible` is not symmetric, since hits recorded earlier in the same call occlude later ones (`C106_visible_refuted`)."
  },
  {
   "property": "C107",
   "status": "partial",
   "theorems": [
    "Ndt.C107_ndt_3d_partial",
    "Ndt.C107_ndt_2d_partial",
    "Ndt.C107_occupancy_3d_partial",
    "Ndt.C107_occupancy_2d_partial",
    "Ndt.C107_reflected_2d",
    "Ndt.C107_reflected_refuted",
    "Ndt.C107_reflected_3d_refuted"
   ],
   "note": "Proved for decompositions whose eigenvectors form a rotation (determinant 1): all four branches of the conversion of a matrix to a quaternion. False of the code for eigenvectors with determinant -1, which are equally valid: the conversion assumes a rotation matrix, and in 2D every such marker is shown parallel to the axes of the map (`C107_reflected_2d`), with a quaternion of length 1/sqrt(2)."
  },
  {
   "property": "C108",
   "status": "proved",
   "theorems": [
    "Ndt.C108_bayes",
    "Ndt.C108_bayes_map",
    "Ndt.C108_threshold",
    "Ndt.C108_forgotten",
    "Ndt.C108_forgotten_eventually",
    "Ndt.C108_learned",
    "Ndt.C108_weighted_odds",
    "Ndt.C108_weighted_threshold",
    "Ndt.C108_weighted_forgotten",
    "Ndt.C108_weighted_learned"
   ],
   "note": "Bayes' rule for distributions with at least one hit (without hits the code returns 0, C21). Occupancy maps: at most 2^64 observations per distribution (the counter of C21); real arithmetic. The later scans are `insert` calls; the map before them is any reachable one. In a weighted map, a scan that hits a bundle does not look through it (C28)."
  },
  {
   "property": "C109",
   "status": "proved",
   "theorems": [
    "Ndt.C109_multiple",
    "Ndt.C109_between",
    "Ndt.C109_dynamic",
    "Ndt.C109_occupancy_hits",
    "Ndt.C109_weighted_hits"
   ],
   "note": "Static maps of different resolutions may cover different regions, so the theorems ask for equal accepted points; for dynamic maps they follow (`C109_dynamic`). Misses depend on the line iterator, which depends on the resolution, and are left out. Exact arithmetic."
  },
  {
   "property": "C110",
   "status": "proved",
   "theorems": [
    "Ndt.C110_contents",
    "Ndt.C110_samples",
    "Ndt.C110_turn_contents",
    "Ndt.C110_turn_samples",
    "Ndt.C110_occupancy_contents",
    "Ndt.C110_weighted_contents",
    "Ndt.C110_turn_occupancy",
    "Ndt.C110_turn_weighted",
    "Ndt.C110_normal_density",
    "Ndt.C110_turn_density",
    "Ndt.C110_occupancy_samples",
    "Ndt.C110_weighted_samples",
    "Ndt.C110_turn_occupancy_samples",
    "Ndt.C110_turn_weighted_samples",
    "Ndt.C110_visible_refuted"
   ],
   "note": "Exact arithmetic. Points on borders are excluded: there the claim is false (`C106_mirror_refuted`). Samples after neighbourhood allocation. For occupancy maps `insert` calls, with the hypothesis that the line iterator (another library) commutes with mirroring and turning between points on no borders. `insertVisible` is not symmetric (`C110_visible_refuted`)."
  },
  {
   "property": "C111",
   "status": "partial",
   "theorems": [
    "Ndt.C111_ndt_partial",
    "Ndt.C111_occupancy_partial",
    "Ndt.C111_level",
    "Ndt.C111_tilted_refuted"
   ],
   "note": "False of the code for tilted poses (refuted): the limits are the heights of the corners getMin() and getMax(), which are not the lowest and the highest point of the map once an axis points downwards; markers then lie outside of the limits, and the limits can be reversed. Proved for all poses under which no axis points downwards, which includes all rotations about the vertical axis. The hypothesis that a distribution without points has no decomposition is about external code."
  },
  {
   "property": "C112",
   "status": "partial",
   "theorems": [
    "Ndt.C112_contents",
    "Ndt.C112_samples",
    "Ndt.C112_occupancy_partial",
    "Ndt.C112_weighted_partial",
    "Ndt.C112_occupancies_partial",
    "Ndt.C112_occupancy_samples_partial",
    "Ndt.C112_weighted_samples_partial",
    "Ndt.C112_free_space_refuted",
    "Ndt.C112_visible_refuted"
   ],
   "note": "Proved completely for NDT maps. For the occupancy maps the hits agree, but the free space evidence does not (refuted): a scan point outside of the smaller map is dropped together with its whole ray, so the cells that the ray passes inside of the map are not freed. The smaller map has at most as many misses as the larger one, hence occupancies at least as high, and everything agrees if no scan point lies outside of the smaller map. Histories of insert; with insertVisible not even the hits agree (C112_visible_refuted), since cells outside of the smaller map count as occupied. Samples are compared after neighbourhood allocation."
  },
  {
   "property": "C113",
   "status": "proved",
   "theorems": [
    "Ndt.C113_positive_iff",
    "Ndt.C113_expanded",
    "Ndt.C113_never_lost",
    "Ndt.C113_occupancy",
    "Ndt.C113_weighted",
    "Ndt.C113_occupancy_scans",
    "Ndt.C113_weighted_scans",
    "Ndt.C113_occupancy_never_lost",
    "Ndt.C113_weighted_never_lost",
    "Ndt.C113_occupancy_hit",
    "Ndt.C113_weighted_hit",
    "Ndt.C113_unexpanded_refuted"
   ],
   "note": "Exact arithmetic: in floating-point arithmetic the density of a distribution far from its mean underflows to 0, which is not modelled. That the allocation is needed is shown by C113_unexpanded_refuted. The density is a parameter that is positive exactly for the point sets with enough points; never lost: a superset of enough points is enough."
  },
  {
   "property": "C114",
   "status": "proved",
   "theorems": [
    "Ndt.C114_nearest_unit",
    "Ndt.C114_nearest_error",
    "Ndt.C114_nearest_positive",
    "Ndt.C114_nearest_nan",
    "Ndt.C114_bilinear_bounds",
    "Ndt.C114_bilinear_error",
    "Ndt.C114_bilinear_evidence",
    "Ndt.C114_bilinear_nan",
    "Ndt.C114_occupancy_unit",
    "Ndt.C114_occupancy_bilinear",
    "Ndt.C114_occupancy_nan",
    "Ndt.C114_same_sample",
    "Ndt.C114_positive_refuted"
   ],
   "note": "The value of the density and of the occupancy are parameters (their own computation is in cslibs_math, not in this repository). No contraction to fused multiply-add. That tiny densities vanish is shown by C114_positive_refuted."
  },
  {
   "property": "C115",
   "status": "partial",
   "theorems": [
    "Ndt.Mono.C115_near_partial",
    "Ndt.Mono.C115_inner_partial",
    "Ndt.Mono.C115_power_of_two_partial",
    "Ndt.Mono.C115_monotone",
    "Ndt.Mono.C115_contents",
    "Ndt.Mono.C115_stored_partial",
    "Ndt.Mono.C115_defined",
    "Ndt.Mono.C115_sample",
    "Ndt.Mono.C115_not_finite_refuted",
    "Ndt.Mono.C115_corner_refuted",
    "Ndt.Mono.C115_ndt_corner_refuted"
   ],
   "note": "False as stated in three ways (refuted): a point in the cell next to the right one for resolutions that are no powers of two (error bounded, as C77), points that are not finite are undefined behaviour instead of being ignored, and the point getMin() is rejected by validate, for example with resolution 0.1 and minimum index -3 in double; the same holds for static NDT maps. Proved: containment up to three roundings and the underflow of one product, exact for powers of two and away from borders, each point in exactly one cell with its multiplicity, definedness, sampling."
  },
  {
   "property": "C116",
   "status": "partial",
   "theorems": [
    "Ndt.C116_occupancy_exact_partial",
    "Ndt.C116_weighted_exact_partial",
    "Ndt.C116_dynamic_partial",
    "Ndt.C116_range_refuted",
    "Ndt.C116_border_refuted",
    "Ndt.C116_refuted"
   ],
   "note": "The property is false of the code in two ways (refuted): every free cell of a ray multiplies the visibility with a probability below 1, so that no ray beyond a certain length is followed, and cells whose neighbours towards the sensor are outside of a static map count as occluded, so that nothing is recorded from a sensor beyond the border or in the last corner of the map. Proved: the exact outcome on every map without hits, and that everything is recorded in dynamic maps as long as the rays are short enough for the model."
  },
  {
   "property": "C117",
   "status": "proved",
   "theorems": [
    "Ndt.C117_occupancy_less",
    "Ndt.C117_weighted_less",
    "Ndt.C117_occupancy_bundles",
    "Ndt.C117_weighted_bundles"
   ],
   "note": "insertVisible without models is insert with another ray tracer for weighted maps (C30) and is not part of the comparison. Without hypotheses on the models or the ray tracer."
  },
  {
   "property": "C118",
   "status": "proved",
   "theorems": [
    "Ndt.C118_range",
    "Ndt.C118_number",
    "Ndt.C118_nan_iff",
    "Ndt.C118_more_hits",
    "Ndt.C118_more_misses",
    "Ndt.C118_agrees",
    "Ndt.C118_error",
    "Ndt.C118_log_odds",
    "Ndt.C118_probabilities",
    "Ndt.C118_certain",
    "Ndt.C118_weighted_range",
    "Ndt.C118_weighted_number",
    "Ndt.C118_weighted_agrees",
    "Ndt.C118_samples"
   ],
   "note": "std::exp is a parameter (A7): increasing, non-negative, values with the significant bits of the type for C118_agrees. The log odds of a probability are the rounded exact ones. Counters are 64 bits wide; the theorems about histories ask for fewer than 2^64 observations, C118_range and C118_number do not. Weighted sums are bounded by 2^60."
  },
  {
   "property": "C119",
   "status": "proved",
   "theorems": [
    "Ndt.C119_nan_zero",
    "Ndt.C119_too_fine",
    "Ndt.C119_too_many_cells",
    "Ndt.C119_coarse",
    "Ndt.C119_infinite",
    "Ndt.C119_negative",
    "Ndt.C119_same",
    "Ndt.C119_double_iff",
    "Ndt.C119_sample",
    "Ndt.C119_overflow_sample"
   ],
   "note": "Binary32 and binary64 with subnormal numbers, infinities and NaN; conversions to int and std::size_t and the int arithmetic of the cell indices, which C42, C56 and C78 leave out. C119_same asks that the bundle indices are ints (dynamic maps: proved). Together with C78_raster_partial it gives the place of every sampled value."
  },
  {
   "property": "C120",
   "status": "partial",
   "theorems": [
    "Ndt.C120_thresholds",
    "Ndt.C120_enough_partial",
    "Ndt.C120_any_prior_partial",
    "Ndt.C120_weighted_thresholds",
    "Ndt.C120_weighted_final_refuted",
    "Ndt.C120_sample",
    "Ndt.C120_prior_sample"
   ],
   "note": "The thresholds are proved for counting and weighted distributions, up to the stated rounding error of the evidence; values between the thresholds are not decided. That certainty is never final is proved for counting distributions, if a hit or miss adds more to the evidence than its rounding error, and false of weighted ones (refuted): the free weight of a map of floats stops at 2^24 misses of weight 1. std::exp is assumption A7."
  },
  {
   "property": "C121",
   "status": "partial",
   "theorems": [
    "Ndt.C121_outside_refuted",
    "Ndt.C121_merged_refuted",
    "Ndt.C121_defined_iff",
    "Ndt.C121_merged_iff",
    "Ndt.C121_cells",
    "Ndt.C121_off_by_one",
    "Ndt.C121_few_bits_partial",
    "Ndt.C121_nan_zero",
    "Ndt.C121_infinite",
    "Ndt.C121_negative",
    "Ndt.C121_sample"
   ],
   "note": "The claim is false of the code, for maps built directly and for merged NDT maps (refuted). C121_defined_iff and C121_merged_iff decide for every map of ordinary size whether the conversion stays inside; C121_off_by_one bounds the deviation from exact arithmetic; C121_few_bits_partial gives resolutions for which the claim holds. Sizes above 2^20 and resolutions outside of 2^-30 to 2^30 are not covered."
  },
  {
   "property": "C122",
   "status": "proved",
   "theorems": [
    "Ndt.C122_update",
    "Ndt.C122_updates",
    "Ndt.C122_length",
    "Ndt.C122_level",
    "Ndt.C122_euler",
    "Ndt.C122_moved",
    "Ndt.C122_points",
    "Ndt.C122_points_2d",
    "Ndt.C122_points_rpy",
    "Ndt.C122_double",
    "Ndt.C122_double_rpy",
    "Ndt.C122_not_unit"
   ],
   "note": "Relative rounding errors; no underflow, overflow or contraction. The updates of all four components (ceres::QuaternionParameterization) are external code."
  },
  {
   "property": "C123",
   "status": "proved",
   "theorems": [
    "Ndt.C123_rotation",
    "Ndt.C123_rotation_close",
    "Ndt.C123_residuals",
    "Ndt.C123_translation",
    "Ndt.C123_quaternion",
    "Ndt.C123_double"
   ],
   "note": "Relative rounding errors; no underflow, overflow or contraction. The accuracy of sin, cos and atan2 and the range of atan2 are hypotheses about external code."
  },
  {
   "property": "C124",
   "status": "partial",
   "theorems": [
    "Ndt.C124_ceres_2d",
    "Ndt.C124_ceres_rpy",
    "Ndt.C124_ceres_quaternion_partial",
    "Ndt.C124_quaternion_refuted",
    "Ndt.C124_nlopt",
    "Ndt.C124_nlopt_occupancy2",
    "Ndt.C124_alglib",
    "Ndt.C124_nlopt_quat_refuted",
    "Ndt.C124_values"
   ],
   "note": "False of the quaternion variants: with ceres the rotation weight limits nothing, with nlopt another rotation is better than the guess even if the map has no weight. Proved for 2D and Euler angles of all three solvers, and for the translation with quaternions (ceres, alglib). Which pose a solver returns is external code; the theorems are about every pose that is not worse than the guess."
  },
  {
   "property": "C125",
   "status": "partial",
   "theorems": [
    "Ndt.C125_interpolated_partial",
    "Ndt.C125_interpolated_occupancy_partial",
    "Ndt.C125_direct_refuted",
    "Ndt.C125_nlopt_alglib_refuted"
   ],
   "note": "True of the interpolated cost with the values that are computed together with derivatives (NDT and occupancy maps). False without interpolation, and false of the interpolated cost where it is evaluated without derivatives, and false of nlopt and alglib, which do not interpolate: the samples jump at bundle borders and the limit is not attained."
  },
  {
   "property": "C126",
   "status": "proved",
   "theorems": [
    "Ndt.C126_cost",
    "Ndt.C126_score",
    "Ndt.C126_order",
    "Ndt.C126_trust",
    "Ndt.C126_double",
    "Ndt.C126_quaternion",
    "Ndt.C126_occupancy2",
    "Ndt.C126_alglib_residuals",
    "Ndt.C126_alglib_score",
    "Ndt.C126_ceres"
   ],
   "note": "The scores are the values that the map returned (their own errors are the subject of C83 and C122), and so are the differences of angles. The limits of C124 do not hold with quaternions (C124), and for alglib they depend on the sum of squares, which the library computes. The score of occupancy maps with nlopt is not the mean score (C48), so that only their cost is treated. No underflow, no overflow and no contraction to fused multiply-add."
  },
  {
   "property": "C127",
   "status": "partial",
   "theorems": [
    "Ndt.C127_ceres",
    "Ndt.C127_nlopt",
    "Ndt.C127_alglib_partial",
    "Ndt.C127_alglib_refuted"
   ],
   "note": "Ceres and nlopt keep the balance, with the exception of nlopt on 2D occupancy maps. With alglib and there, recording every point twice halves the weight of the map, which can reverse the order of two poses (C127_alglib_refuted); C127_alglib_partial gives the exact dependence on the number of points, and that the reported score does not depend on it. Ceres with quaternions: of norm 1."
  },
  {
   "property": "C128",
   "status": "proved",
   "theorems": [
    "Ndt.C128_ceres",
    "Ndt.C128_nlopt",
    "Ndt.C128_result",
    "Ndt.C128_result_ceres",
    "Ndt.C128_alglib",
    "Ndt.C128_occupancy2",
    "Ndt.C128_score"
   ],
   "note": "That map values and scores lie between 0 and 1 is C124_values. The score that nlopt reports on 2D occupancy maps is not a mean of scores (C48) and not part of the claim. Ceres with quaternions: of norm 1. The consequence for the best pose is stated for nlopt and ceres."
  },
  {
   "property": "C129",
   "status": "partial",
   "theorems": [
    "Ndt.C129_nlopt",
    "Ndt.C129_occupancy2",
    "Ndt.C129_alglib",
    "Ndt.C129_ceres",
    "Ndt.C129_map",
    "Ndt.C129_occupancy_map",
    "Ndt.C129_weighted_map",
    "Ndt.C129_quaternion_refuted"
   ],
   "note": "With quaternions the rotation prior is constant (C46, C65), so the rotation is left open (C129_quaternion_refuted). C129_map, C129_occupancy_map, C129_weighted_map: places without evidence in terms of the inserted points."
  },
  {
   "property": "C130",
   "status": "partial",
   "theorems": [
    "Ndt.C130_nlopt",
    "Ndt.C130_alglib",
    "Ndt.C130_occupancy_refuted"
   ],
   "note": "Proved for nlopt on NDT maps and for alglib. False of nlopt on occupancy maps: points without a score are skipped in 3D, and in 2D the cost is divided by the number of points twice, so that a scan beside the map gets the score 1, or 1 - 1/(4 n) (C130_occupancy_refuted)."
  },
  {
   "property": "C131",
   "status": "proved",
   "theorems": [
    "Ndt.C131_nlopt",
    "Ndt.C131_nlopt_quaternion",
    "Ndt.C131_occupancy2",
    "Ndt.C131_alglib",
    "Ndt.C131_ceres",
    "Ndt.C131_map",
    "Ndt.C131_scans",
    "Ndt.C131_distance"
   ],
   "note": "Which pose a solver returns is not modelled; the claim is about the best poses. With quaternions only the translation is limited (C124), so the maps have to agree for all rotations; for nlopt with quaternions the limit grows by the largest rotation prior."
  },
  {
   "property": "C132",
   "status": "partial",
   "theorems": [
    "Ndt.C132_nlopt",
    "Ndt.C132_score",
    "Ndt.C132_occupancy2",
    "Ndt.C132_alglib",
    "Ndt.C132_ceres",
    "Ndt.C132_sample",
    "Ndt.C132_rounded",
    "Ndt.C132_occupancy_refuted"
   ],
   "note": "Proved for nlopt on NDT maps and on 2D occupancy maps, for alglib and for ceres. False of nlopt on 3D occupancy maps, where scores below the smallest normal number are skipped instead of counted as lost (C132_occupancy_refuted). C132_sample and C132_rounded apply it to maps sampled with rounding errors, at points whose bundle is computed correctly."
  },
  {
   "property": "C133",
   "status": "partial",
   "theorems": [
    "Ndt.C133_nlopt_ratios",
    "Ndt.C133_alglib_ratios",
    "Ndt.C133_nlopt_map_weight",
    "Ndt.C133_nlopt_prior_weights",
    "Ndt.C133_squares_prior_weights",
    "Ndt.C133_occupancy2_map_weight",
    "Ndt.C133_alglib_map_weight",
    "Ndt.C133_ceres",
    "Ndt.C133_ceres_quaternion",
    "Ndt.C133_alglib_score_refuted"
   ],
   "note": "Proved as stated. False of the score reported with alglib: in the map of C133_alglib_score_refuted the score of the best pose falls from 0.55 to 0.5 when the map weight is raised from 1 to 20."
  },
  {
   "property": "C134",
   "status": "partial",
   "theorems": [
    "Ndt.C134_nlopt",
    "Ndt.C134_scores",
    "Ndt.C134_scores_occupancy3",
    "Ndt.C134_ceres",
    "Ndt.C134_alglib_partial",
    "Ndt.C134_squares_refuted"
   ],
   "note": "Proved for nlopt on NDT maps and 3D occupancy maps and for ceres, and for the scores of nlopt on these maps and of alglib. False of the costs of alglib and of nlopt on 2D occupancy maps (C134_squares_refuted); with alglib the best poses still agree when there are no priors."
  }
 ]
}