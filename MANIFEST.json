{
 "claims": [
  {
   "property": "C01",
   "status": "proved",
   "theorems": [
    "Cmm.Ser.C01_curves_roundtrip",
    "Cmm.Ser.C01_identity_iff_flags_agree"
   ],
   "note": "Every list of curves round-trips; the stored flag is the one is_periodic() computes, and equality of the flags is necessary and sufficient for full identity."
  },
  {
   "property": "C02",
   "status": "proved",
   "theorems": [
    "Cmm.Ser.C02_int",
    "Cmm.Ser.C02_double",
    "Cmm.Ser.C02_bool",
    "Cmm.Ser.C02_vec4",
    "Cmm.Ser.C02_vectorDouble",
    "Cmm.Ser.C02_vectorVec4",
    "Cmm.Ser.C02_curve",
    "Cmm.Ser.C02_little_endian",
    "Cmm.Ser.C02_bool_any_nonzero"
   ],
   "note": ""
  },
  {
   "property": "C03",
   "status": "proved",
   "theorems": [
    "Cmm.Ser.C03_prefix_free"
   ],
   "note": ""
  },
  {
   "property": "C04",
   "status": "partial",
   "theorems": [
    "Cmm.Ser.C04_every_truncation_reads_out_of_bounds",
    "Cmm.Ser.C04_negative_length_throws_partial",
    "Cmm.Ser.C04_empty_vectors_undefined",
    "Cmm.Ser.C04_trailing_bytes_ignored"
   ],
   "note": "Violated by the code: every proper prefix of every encoding is read out of bounds (proved). What does hold, a negative stored length throwing, is C04_negative_length_throws_partial."
  },
  {
   "property": "C05",
   "status": "proved",
   "theorems": [
    "Cmm.KD.C05_rangeSearch_exact",
    "Cmm.KD.C05_inverted_box_empty"
   ],
   "note": ""
  },
  {
   "property": "C06",
   "status": "proved",
   "theorems": [
    "Cmm.KD.C06_nearest_rounded",
    "Cmm.KD.C06_nearest_is_minimal",
    "Cmm.KD.C06_nearest_error"
   ],
   "note": "Exactly minimal in the distances as computed, for every monotone rounding of the arithmetic (C06_nearest_rounded), hence truly minimal in exact arithmetic; C06_nearest_error bounds the true distance when each operation has a relative error."
  },
  {
   "property": "C07",
   "status": "proved",
   "theorems": [
    "Cmm.KD.C07_size_empty",
    "Cmm.KD.C07_nearest_throws_iff",
    "Cmm.KD.C07_build_permutes"
   ],
   "note": ""
  },
  {
   "property": "C08",
   "status": "proved",
   "theorems": [
    "Cmm.C08_intersects_iff_common_point",
    "Cmm.C08_intersects_symm",
    "Cmm.C08_intersection_exact"
   ],
   "note": ""
  },
  {
   "property": "C09",
   "status": "proved",
   "theorems": [
    "Cmm.C09_merge_least",
    "Cmm.C09_boxLe_is_inclusion",
    "Cmm.C09_ofPoints_least",
    "Cmm.C09_ofPoints_set_invariant",
    "Cmm.C09_expand_least",
    "Cmm.C09_default_neutral"
   ],
   "note": ""
  },
  {
   "property": "C10",
   "status": "proved",
   "theorems": [
    "Cmm.C10_volume_nonneg",
    "Cmm.C10_volume_rounded",
    "Cmm.C10_volume_mono",
    "Cmm.C10_volume_intersection"
   ],
   "note": "For every monotone rounding of the arithmetic."
  },
  {
   "property": "C11",
   "status": "proved",
   "theorems": [
    "Cmm.BVH.C11_build_correct",
    "Cmm.BVH.C11_split_permutes"
   ],
   "note": ""
  },
  {
   "property": "C12",
   "status": "proved",
   "theorems": [
    "Cmm.BVH.C12_traverse_exact",
    "Cmm.BVH.C12_contains_point_exact",
    "Cmm.BVH.C12_builders_agree"
   ],
   "note": ""
  },
  {
   "property": "C13",
   "status": "proved",
   "theorems": [
    "Cmm.BVH.C13_iterative_exact"
   ],
   "note": ""
  },
  {
   "property": "C14",
   "status": "proved",
   "theorems": [
    "Cmm.BVH.C14_recursive_exact",
    "Cmm.BVH.C14_flat_overlap_not_reported"
   ],
   "note": ""
  },
  {
   "property": "C15",
   "status": "partial",
   "theorems": [
    "Cmm.BVH.C15_copy_loses_objects",
    "Cmm.BVH.C15_assign_loses_objects",
    "Cmm.BVH.C15_setRight_overwrites_left",
    "Cmm.BVH.C15_copy_keeps_boxes_partial"
   ],
   "note": "Violated by the code: copies lose all objects and setRight overwrites the left child (proved for every tree). Shape and boxes are kept (C15_copy_keeps_boxes_partial)."
  },
  {
   "property": "C16",
   "status": "proved",
   "theorems": [
    "Cmm.MV.C16_row_major_bijection",
    "Cmm.MV.C16_total_is_product",
    "Cmm.MV.C16_rank_zero"
   ],
   "note": ""
  },
  {
   "property": "C17",
   "status": "partial",
   "theorems": [
    "Cmm.MV.C17_slice_selects",
    "Cmm.MV.C17_positive_steps_in_bounds",
    "Cmm.MV.C17_slices_compose",
    "Cmm.MV.C17_slice_throws_iff",
    "Cmm.MV.C17_negative_step_past_end",
    "Cmm.MV.C17_negative_step_misses_first",
    "Cmm.MV.C17_huge_step_overflows",
    "Cmm.MV.C17_integer_is_index",
    "Cmm.MV.C17_full_slice",
    "Cmm.MV.C17_huge_dimension_counterexample"
   ],
   "note": "Selection, composition, bounds and exception behaviour proved for all views and slices; violated by the code for negative steps (past-the-end first element, position 0 unreachable) and for steps whose length computation overflows int (all proved)."
  },
  {
   "property": "C18",
   "status": "proved",
   "theorems": [
    "Cmm.MV.C18_access_throws_iff",
    "Cmm.MV.C18_valid_iff",
    "Cmm.MV.C18_subview"
   ],
   "note": ""
  },
  {
   "property": "C19",
   "status": "proved",
   "theorems": [
    "Cmm.MV.C19_reshape_throws_iff",
    "Cmm.MV.C19_reshape_keeps_sequence",
    "Cmm.MV.C19_reshape_of_slice_moves"
   ],
   "note": "Proved for contiguous views; the violation for sliced views is proved too."
  },
  {
   "property": "C20",
   "status": "partial",
   "theorems": [
    "Cmm.MV.C20_size_is_one",
    "Cmm.MV.C20_size_diverges",
    "Cmm.MV.C20_size_terminates_partial",
    "Cmm.MV.C20_copy_is_truncated",
    "Cmm.MV.C20_copy_outcome"
   ],
   "note": "Violated by the code: size() returns only 1, diverges on some shapes, copy() truncates (all proved). Termination for positive dimensions is the _partial theorem."
  },
  {
   "property": "C21",
   "status": "proved",
   "theorems": [
    "Cmm.MV.C21_roundtrip",
    "Cmm.MV.C21_roundtrip_elements",
    "Cmm.MV.C21_never_out_of_bounds",
    "Cmm.MV.C21_type_mismatch",
    "Cmm.MV.C21_truncated_rejected",
    "Cmm.MV.C21_prefix_rejected",
    "Cmm.MV.C21_slice_roundtrip_out_of_bounds"
   ],
   "note": "Round trip for contiguous views, no out-of-bounds read on any buffer, type mismatch and every truncation rejected. The violation for sliced views is C21_slice_roundtrip_out_of_bounds."
  },
  {
   "property": "C22",
   "status": "proved",
   "theorems": [
    "Cmm.Nurbs.C22_find_span",
    "Cmm.Nurbs.C22_find_span_unique",
    "Cmm.Nurbs.C22_find_span_below"
   ],
   "note": ""
  },
  {
   "property": "C23",
   "status": "proved",
   "theorems": [
    "Cmm.Nurbs.C23_generated_clamped",
    "Cmm.Nurbs.C23_generated_undefined",
    "Cmm.Nurbs.C23_periodic_uniform",
    "Cmm.Nurbs.C23_constructor"
   ],
   "note": ""
  },
  {
   "property": "C24",
   "status": "proved",
   "theorems": [
    "Cmm.Nurbs.C24_insertion_sorted",
    "Cmm.Nurbs.C24_multiplicity_counts",
    "Cmm.Nurbs.C24_multiplicity_exact"
   ],
   "note": ""
  },
  {
   "property": "C25",
   "status": "proved",
   "theorems": [
    "Cmm.Nurbs.C25_unique_knots",
    "Cmm.Nurbs.C25_multiplicities_total",
    "Cmm.Nurbs.C25_multiplicities_sorted",
    "Cmm.Nurbs.C25_multiplicities_lossless",
    "Cmm.Nurbs.C25_close_knots_merged",
    "Cmm.Nurbs.C25_normalize"
   ],
   "note": ""
  },
  {
   "property": "C26",
   "status": "proved",
   "theorems": [
    "Cmm.Nurbs.C26_basis_functions",
    "Cmm.Nurbs.C26_basis_at_end",
    "Cmm.Nurbs.C26_partition_of_unity",
    "Cmm.Nurbs.C26_no_zero_division"
   ],
   "note": ""
  },
  {
   "property": "C27",
   "status": "proved",
   "theorems": [
    "Cmm.Nurbs.C27_convex_combination",
    "Cmm.Nurbs.C27_curve_in_box",
    "Cmm.Nurbs.C27_own_box_unit_weights",
    "Cmm.Nurbs.C27_own_box_counterexample"
   ],
   "note": "Convex combination and box containment for all positive weights; the own aabb() contains the curve for unit weights and a counterexample is proved for other weights, as the statement says."
  },
  {
   "property": "C28",
   "status": "proved",
   "theorems": [
    "Cmm.Nurbs.C28_affine_invariance",
    "Cmm.Nurbs.C28_end_points"
   ],
   "note": ""
  },
  {
   "property": "C29",
   "status": "proved",
   "theorems": [
    "Cmm.Nurbs.C29_insertion_keeps_curve",
    "Cmm.Nurbs.C29_unequal_weights_counterexample",
    "Cmm.Nurbs.C29_too_many_copies"
   ],
   "note": "Proved for all valid curves with equal weights (the domain the statement restricts to); the violation for unequal weights is C29_unequal_weights_counterexample."
  },
  {
   "property": "C30",
   "status": "proved",
   "theorems": [
    "Cmm.Nurbs.C30_split_reproduces",
    "Cmm.Nurbs.C30_split_normalized",
    "Cmm.Nurbs.C30_split_throws"
   ],
   "note": ""
  },
  {
   "property": "C31",
   "status": "proved",
   "theorems": [
    "Cmm.Nurbs.C31_convex_combination",
    "Cmm.Nurbs.C31_surface_in_box",
    "Cmm.Nurbs.C31_own_box",
    "Cmm.Nurbs.C31_corners"
   ],
   "note": ""
  },
  {
   "property": "C32",
   "status": "partial",
   "theorems": [
    "Cmm.Nurbs.C32_isocurve_u_partial",
    "Cmm.Nurbs.C32_isocurve_v_partial",
    "Cmm.Nurbs.C32_out_of_range",
    "Cmm.Nurbs.C32_unequal_weights_counterexample",
    "Cmm.Nurbs.C32_boundaries_partial",
    "Cmm.Nurbs.C32_free_u_agrees",
    "Cmm.Nurbs.C32_free_v_drops_knots",
    "Cmm.Nurbs.C32_free_v_agrees_partial",
    "Cmm.Nurbs.C32_free_v_counterexample"
   ],
   "note": "Proved for unit weights; violated by the code for other weights (counterexample theorem) and by the free function with v fixed, which never uses the surface's u knots (proved for every surface)."
  },
  {
   "property": "C33",
   "status": "proved",
   "theorems": [
    "Cmm.Nurbs.C33_insert_u",
    "Cmm.Nurbs.C33_insert_v",
    "Cmm.Nurbs.C33_too_many_copies",
    "Cmm.Nurbs.C33_split_u",
    "Cmm.Nurbs.C33_split_v",
    "Cmm.Nurbs.C33_split_throws",
    "Cmm.Nurbs.C33_subdivide_at",
    "Cmm.Nurbs.C33_subdivide_mid"
   ],
   "note": "Insertion (any count within the degree), splitting and subdivision, all weights; parameters with no other knot closer than 1e-12."
  },
  {
   "property": "C34",
   "status": "proved",
   "theorems": [
    "Cmm.Nurbs.C34_is_periodic_iff",
    "Cmm.Nurbs.C34_is_periodic_undefined",
    "Cmm.Nurbs.C34_make_periodic",
    "Cmm.Ser.C34_isPeriodic_iff"
   ],
   "note": ""
  },
  {
   "property": "C35",
   "status": "proved",
   "theorems": [
    "Cmm.Mat.C35_inverse_throws_iff",
    "Cmm.Mat.C35_inverse_two_sided",
    "Cmm.Mat.C35_solve_fails_iff",
    "Cmm.Mat.C35_solve_unique",
    "Cmm.Mat.C35_solve_mulVec",
    "Cmm.Mat.C35_algebra",
    "Cmm.Mat.C35_entries",
    "Cmm.Mat.C35_constructors",
    "Cmm.Mat.C35_brace_constructor_ignores_argument"
   ],
   "note": ""
  },
  {
   "property": "C36",
   "status": "proved",
   "theorems": [
    "Cmm.Mat.C36_constructor",
    "Cmm.Mat.C36_mul_throws",
    "Cmm.Mat.C36_mul",
    "Cmm.Mat.C36_transpose",
    "Cmm.Mat.C36_transpose_involution",
    "Cmm.Mat.C36_inverse_not_square",
    "Cmm.Mat.C36_inverse",
    "Cmm.Mat.C36_singular_throws",
    "Cmm.Mat.C36_invertible_but_throws"
   ],
   "note": ""
  },
  {
   "property": "C37",
   "status": "proved",
   "theorems": [
    "Cmm.Newton.C37_solution",
    "Cmm.Newton.C37_accepts_iff_posDef",
    "Cmm.Newton.C37_factorisation",
    "Cmm.Newton.C37_unique"
   ],
   "note": ""
  },
  {
   "property": "C38",
   "status": "proved",
   "theorems": [
    "Cmm.Newton.C38_never_uphill",
    "Cmm.Newton.C38_returns",
    "Cmm.Newton.C38_nan_never_returns",
    "Cmm.Newton.C38_stopping_rule"
   ],
   "note": ""
  },
  {
   "property": "C39",
   "status": "proved",
   "theorems": [
    "Cmm.Newton.C39_hessian_symmetric",
    "Cmm.Newton.C39_gradient_exact",
    "Cmm.Newton.C39_hessian_exact",
    "Cmm.Newton.C39_nonfinite"
   ],
   "note": ""
  },
  {
   "property": "C40",
   "status": "proved",
   "theorems": [
    "Cmm.Mono.C40_table",
    "Cmm.Mono.C40_out_of_bounds"
   ],
   "note": ""
  },
  {
   "property": "C41",
   "status": "proved",
   "theorems": [
    "Cmm.Mono.C41_control_net",
    "Cmm.Mono.C41_surface",
    "Cmm.Mono.C41_roundtrip",
    "Cmm.Mono.C41_to_bezier",
    "Cmm.Mono.C41_too_large",
    "Cmm.Mono.C41_assign_drops_matrices",
    "Cmm.Mono.C41_default_object",
    "Cmm.Mono.C41_ragged"
   ],
   "note": "operator= does not copy the conversion matrices (C41_assign_drops_matrices); more than 31 coefficients per direction read the table out of bounds (C41_too_large)."
  },
  {
   "property": "C42",
   "status": "proved",
   "theorems": [
    "Cmm.Mono.C42_partial_u",
    "Cmm.Mono.C42_partial_v",
    "Cmm.Mono.C42_poly_is_patch",
    "Cmm.Mono.C42_cross",
    "Cmm.Mono.C42_normal",
    "Cmm.Mono.C42_object",
    "Cmm.Mono.C42_single_row",
    "Cmm.Mono.C42_degenerate"
   ],
   "note": "Degenerate tensors (no rows, a single row in U) are covered by C42_single_row and C42_degenerate."
  },
  {
   "property": "C43",
   "status": "proved",
   "theorems": [
    "Cmm.Num.C43_terminates",
    "Cmm.Num.C43_error_nonneg",
    "Cmm.Num.C43_composite",
    "Cmm.Num.C43_no_refinement",
    "Cmm.Num.C43_exact",
    "Cmm.Num.C43_quartic_inexact",
    "Cmm.Num.C43_linear",
    "Cmm.Num.C43_linear_depth_zero"
   ],
   "note": ""
  },
  {
   "property": "C44",
   "status": "proved",
   "theorems": [
    "Cmm.Num.C44_throws_iff",
    "Cmm.Num.C44_contract",
    "Cmm.Num.C44_least",
    "Cmm.Num.C44_first_nan",
    "Cmm.Num.C44_status",
    "Cmm.Num.C44_unimodal",
    "Cmm.Num.C44_point_interval",
    "Cmm.Num.C44_parabola",
    "Cmm.Num.C44_steps_halve"
   ],
   "note": ""
  },
  {
   "property": "C45",
   "status": "proved",
   "theorems": [
    "Cmm.Geom.C45_segment",
    "Cmm.Geom.C45_segment_point",
    "Cmm.Geom.C45_triangle"
   ],
   "note": ""
  },
  {
   "property": "C46",
   "status": "partial",
   "theorems": [
    "Cmm.Geom.C46_line_partial",
    "Cmm.Geom.C46_ray_is_line",
    "Cmm.Geom.C46_ray_counterexample",
    "Cmm.Geom.C46_segment_partial",
    "Cmm.Geom.C46_segment_counterexample",
    "Cmm.Geom.C46_segment_off",
    "Cmm.Geom.C46_triangle_partial",
    "Cmm.Geom.C46_triangle_counterexample"
   ],
   "note": "Proved for the line; exact condition for the segment (C46_segment_partial); the triangle result is the closest point minus the query point. Counterexamples for ray, segment and triangle show the full statement is false for the code."
  },
  {
   "property": "C47",
   "status": "partial",
   "theorems": [
    "Cmm.Geom.C47_residual",
    "Cmm.Geom.C47_three_points_partial",
    "Cmm.Geom.C47_float_counterexample",
    "Cmm.Geom.C47_constructors",
    "Cmm.Geom.C47_default",
    "Cmm.Geom.C47_origin_normal",
    "Cmm.Geom.C47_origin_normal_counterexample",
    "Cmm.Geom.C47_coefficient_origin",
    "Cmm.Geom.C47_signed_distance_partial",
    "Cmm.Geom.C47_signed_distances",
    "Cmm.Geom.C47_ray_partial",
    "Cmm.Geom.C47_segment_partial",
    "Cmm.Geom.C47_maxIndex",
    "Cmm.Geom.C47_two_planes_partial",
    "Cmm.Geom.C47_two_planes_iff",
    "Cmm.Geom.C47_parallel_planes",
    "Cmm.Geom.C47_two_planes_counterexample",
    "Cmm.Geom.C47_three_planes_partial"
   ],
   "note": "Three-point plane contains its points when the float products are exact (exact residual in C47_residual); ray, segment, three-plane results exact; two-plane results sound. Counterexamples: origin/normal constructor, float rounding, missed intersection of z=0 and x=0."
  },
  {
   "property": "C48",
   "status": "partial",
   "theorems": [
    "Cmm.Geom.C48_verdict",
    "Cmm.Geom.C48_complete_partial",
    "Cmm.Geom.C48_fourth_ignored",
    "Cmm.Geom.C48_collinear_start",
    "Cmm.Geom.C48_counterexample"
   ],
   "note": "The verdict is exact for all points but the fourth (C48_verdict); counterexample: a tetrahedron is accepted."
  },
  {
   "property": "C49",
   "status": "proved",
   "theorems": [
    "Cmm.Gjk.C49_separation_sound",
    "Cmm.Gjk.C49_terminates",
    "Cmm.Gjk.C49_rounds",
    "Cmm.Gjk.C49_empty",
    "Cmm.Gjk.C49_stale_simplex",
    "Cmm.Gjk.C49_closest",
    "Cmm.Gjk.C49_collision_counterexample",
    "Cmm.Gjk.C49_towards_origin",
    "Cmm.Gjk.C49_perpendicular",
    "Cmm.Gjk.C49_triangle_edge",
    "Cmm.Gjk.C49_inside_cone",
    "Cmm.Gjk.C49_support_first",
    "Cmm.Gjk.C49_tetrahedron_partial",
    "Cmm.Gjk.C49_tetrahedron_counterexample",
    "Cmm.Gjk.C49_segment_region",
    "Cmm.Gjk.C49_triangle_region"
   ],
   "note": "The positive verdict is outside the property; C49_collision_counterexample shows it cannot be relied on."
  },
  {
   "property": "C50",
   "status": "partial",
   "theorems": [
    "Cmm.Hull2d.C50_points_partial",
    "Cmm.Hull2d.C50_hull_partial",
    "Cmm.Hull2d.C50_degenerate",
    "Cmm.Hull2d.C50_tolerance_counterexample",
    "Cmm.Hull2d.C50_comparator_counterexample",
    "Cmm.Hull2d.C50_comparator_partial"
   ],
   "note": "Proved for point lists the tolerance 1e-9 can resolve and that are not on one line. Missing: lists with triangles below the tolerance (C50_tolerance_counterexample: no hull; C50_comparator_counterexample: std::sort is called with a cyclic comparator) and collinear lists (C50_degenerate: nothing is returned)."
  },
  {
   "property": "C51",
   "status": "partial",
   "theorems": [
    "Cmm.Sep.C51_sat3d_quickhull_partial",
    "Cmm.Sep.C51_sat3d_plane_counterexample",
    "Cmm.Sep.C51_sat2d_sound_partial",
    "Cmm.Sep.C51_sat2d_repeated_counterexample",
    "Cmm.Sep.C51_sat2d_throws",
    "Cmm.Sep.C51_sat2d_false",
    "Cmm.Sep.C51_sat2d_incomplete_counterexample",
    "Cmm.Sep.C51_distance_sound",
    "Cmm.Sep.C51_distance_iff",
    "Cmm.Sep.C51_touch",
    "Cmm.Sep.C51_point_in_hull",
    "Cmm.Sep.C51_aabbTest",
    "Cmm.Sep.C51_sat3d_sound"
   ],
   "note": "SAT2D reports a separation of overlapping polygons if a vertex is repeated (C51_sat2d_repeated_counterexample); for polygons without repeated vertices soundness is proved (C51_sat2d_sound_partial). polygonRelationship2D, AABBTest and SAT3D (relative to the 3D hull routine) are proved sound for every input. SAT2D misses separations by an edge of the second polygon (C51_sat2d_incomplete_counterexample). SAT3D: sound for any hull routine that loses none of the given points, and with the code's own routine for fewer than five points or integer points of which no four are in a plane; false for points of a plane (C51_sat3d_plane_counterexample)."
  },
  {
   "property": "C52",
   "status": "partial",
   "theorems": [
    "Cmm.Poly.C52_assemble_of_keys",
    "Cmm.Poly.C52_close",
    "Cmm.Poly.C52_assemble_partial",
    "Cmm.Poly.C52_range_counterexample",
    "Cmm.Poly.C52_outermost_cell_counterexample"
   ],
   "note": "Proved for segments with coordinates up to about 4.7e-7, and for every key function with the neighbourhood property (C52_assemble_of_keys); PointKey overflows int for larger coordinates, which is undefined behaviour (C52_range_counterexample)."
  },
  {
   "property": "C53",
   "status": "partial",
   "theorems": [
    "Cmm.Bnd.C53_sort",
    "Cmm.Bnd.C53_dedup",
    "Cmm.Bnd.C53_dedup_representatives",
    "Cmm.Bnd.C53_params",
    "Cmm.Bnd.C53_find",
    "Cmm.Bnd.C53_find_appends",
    "Cmm.Bnd.C53_process_simple",
    "Cmm.Bnd.C53_u_boundary_on_surface_partial",
    "Cmm.Bnd.C53_v_boundary_on_surface_partial",
    "Cmm.Bnd.C53_v_boundary_counterexample"
   ],
   "note": "Sorting, duplicate removal, and stored parameters proved for all inputs and all answers of the curve-surface intersection. Missing: on the boundaries with fixed v the boundary curve has lost the surface's knots, so its point is not the surface's (C53_v_boundary_counterexample); the evaluation clause is proved for fixed u, unit weights."
  },
  {
   "property": "C54",
   "status": "proved",
   "theorems": [
    "Cmm.Hash.C54_pair",
    "Cmm.Hash.C54_pair_equal_iff",
    "Cmm.Hash.C54_vec2",
    "Cmm.Hash.C54_vec3",
    "Cmm.Hash.C54_vec3_equivalence",
    "Cmm.Hash.C54_vec2_equivalence",
    "Cmm.Hash.C54_normal",
    "Cmm.Hash.C54_collinear_iff",
    "Cmm.Hash.C54_key"
   ],
   "note": "In exact arithmetic. PairDoubleHash ignores the second component and Normal2Hash returns 0 or 1, which costs speed but not correctness."
  },
  {
   "property": "C55",
   "status": "proved",
   "theorems": [
    "Cmm.Csx.C55_reports_genuine",
    "Cmm.Csx.C55_terminates",
    "Cmm.Csx.C55_bezier_genuine",
    "Cmm.Csx.C55_too_small",
    "Cmm.Csx.C55_apart_reports_nothing",
    "Cmm.Csx.C55_found_is_reported",
    "Cmm.Csx.C55_not_found_searches_parts",
    "Cmm.Csx.C55_found_at_end_throws",
    "Cmm.Csx.C55_found_at_border_stops",
    "Cmm.Csx.C55_first_part_decides"
   ],
   "note": "Newton search, degeneracy test, square root and central projection test are arbitrary oracles. Genuineness is proved for the piece pairs of the recursion in general and for the curve and surface themselves when both are Bézier (equal curve weights). C55_found_at_end_throws and C55_first_part_decides record the observed exceptions and skips."
  },
  {
   "property": "C56",
   "status": "partial",
   "theorems": [
    "Cmm.Ccx.C56_outcome_unique",
    "Cmm.Ccx.C56_nothing_missed_partial",
    "Cmm.Ccx.C56_bezier_returns",
    "Cmm.Ccx.C56_returns",
    "Cmm.Ccx.C56_default_knots_return",
    "Cmm.Ccx.C56_needs_positive_tolerance",
    "Cmm.Ccx.C56_no_points",
    "Cmm.Ccx.C56_too_narrow_throws",
    "Cmm.Ccx.C56_weighted_counterexample"
   ],
   "note": "Proved for clamped curves with unit weights whose knots keep clear of the halving points (soundness, completeness, no consecutive duplicates), with termination for all of them once the slopes of the control polygon bring the pieces below the tolerance, in particular for curves with default knots; with other weights a crossing is missed (counterexample), a non-positive tolerance never ends normally, and too narrow intervals throw."
  },
  {
   "property": "C57",
   "status": "proved",
   "theorems": [
    "Cmm.Step.C57_curve",
    "Cmm.Step.C57_surface",
    "Cmm.Step.C57_file"
   ],
   "note": "Text modelled as tokens; entity numbers as naturals (int overflow left out)."
  },
  {
   "property": "C58",
   "status": "proved",
   "theorems": [
    "Cmm.Geom.C58_closest",
    "Cmm.Geom.C58_overloads",
    "Cmm.Geom.C58_parallel"
   ],
   "note": ""
  },
  {
   "property": "C59",
   "status": "partial",
   "theorems": [
    "Cmm.Ssx.C59_always_false",
    "Cmm.Ssx.C59_counterexample",
    "Cmm.Ssx.C59_choose_partial",
    "Cmm.Ssx.C59_tangent_partial",
    "Cmm.Ssx.C59_orientation_counterexample",
    "Cmm.Ssx.C59_robust_ignores_tangents"
   ],
   "note": "Violated by the code: improve_uv returns false for all inputs (C59_always_false), because the nested-brace matrix constructor ignores its argument. The selection and solution steps alone are proved correct (_partial), and refuse negatively oriented tangents (C59_orientation_counterexample)."
  },
  {
   "property": "C60",
   "status": "proved",
   "theorems": [
    "Cmm.Gjk.C60_strict_total_order"
   ],
   "note": ""
  },
  {
   "property": "C61",
   "status": "proved",
   "theorems": [
    "Cmm.Ser.C61_curve_size",
    "Cmm.Ser.C61_list_size"
   ],
   "note": ""
  },
  {
   "property": "C62",
   "status": "partial",
   "theorems": [
    "Cmm.C62_infinity_never_true"
   ],
   "note": "Violated by the code: the recogniser never returns true (proved)."
  },
  {
   "property": "C63",
   "status": "proved",
   "theorems": [
    "Cmm.BVH.C63_bottom_up_balanced"
   ],
   "note": ""
  },
  {
   "property": "C64",
   "status": "partial",
   "theorems": [
    "Cmm.MV.C64_preview_1d",
    "Cmm.MV.C64_preview_out_of_bounds"
   ],
   "note": "One-dimensional case proved; violated by the code in two dimensions (proved for all r, c >= 2)."
  },
  {
   "property": "C65",
   "status": "proved",
   "theorems": [
    "Cmm.MV.C65_begin_end",
    "Cmm.MV.C65_begin_end_of_slice"
   ],
   "note": "With the counterexample for sliced views."
  },
  {
   "property": "C66",
   "status": "proved",
   "theorems": [
    "Cmm.Nurbs.C66_normalize_keeps_shape"
   ],
   "note": ""
  },
  {
   "property": "C67",
   "status": "partial",
   "theorems": [
    "Cmm.Nurbs.C67_bad_direction",
    "Cmm.Nurbs.C67_net_u_partial",
    "Cmm.Nurbs.C67_net_v_partial",
    "Cmm.Nurbs.C67_size_lost",
    "Cmm.Nurbs.C67_equal_weights_unusable"
   ],
   "note": "Net of scaled differences proved; the returned surface has size zero and cannot be evaluated for equal weights (proved)."
  },
  {
   "property": "C68",
   "status": "proved",
   "theorems": [
    "Cmm.Num.C68_residual",
    "Cmm.Num.C68_nan",
    "Cmm.Num.C68_constant",
    "Cmm.Num.C68_no_iterations"
   ],
   "note": ""
  },
  {
   "property": "C69",
   "status": "proved",
   "theorems": [
    "Cmm.Geom.C69_projection",
    "Cmm.Geom.C69_same_height",
    "Cmm.Geom.C69_fixed"
   ],
   "note": ""
  },
  {
   "property": "C70",
   "status": "partial",
   "theorems": [
    "Cmm.Geom.C70_round_trip_partial",
    "Cmm.Geom.C70_default",
    "Cmm.Geom.C70_inverses",
    "Cmm.Geom.C70_signed_distance",
    "Cmm.Geom.C70_signed_distance_counterexample",
    "Cmm.Geom.C70_unitize",
    "Cmm.Geom.C70_three_points_counterexample"
   ],
   "note": "Round trip proved for orthonormal axes; signed distance is off by w/|n| (C70_signed_distance), counterexamples given."
  },
  {
   "property": "C71",
   "status": "partial",
   "theorems": [
    "Cmm.Hash.C71_vec3_close_partial",
    "Cmm.Hash.C71_vec2_close_partial",
    "Cmm.Hash.C71_decimals_counterexample",
    "Cmm.Hash.C71_vec3_range",
    "Cmm.Hash.C71_point_key",
    "Cmm.Hash.C71_point_key_range"
   ],
   "note": "Vec3Equal identifies points up to 2/15 apart (C71_decimals_counterexample); the exact bound is proved. PointKey is undefined beyond about 4.8e-7 (C71_point_key_range)."
  },
  {
   "property": "C72",
   "status": "partial",
   "theorems": [
    "Cmm.Step.C72_curve_text",
    "Cmm.Step.C72_surface_text",
    "Cmm.Step.C72_curve_balanced",
    "Cmm.Step.C72_surface_balanced_partial",
    "Cmm.Step.C72_unbalanced_counterexample",
    "Cmm.Step.C72_kinds_counterexample",
    "Cmm.Step.C72_shape_kinds",
    "Cmm.Step.C72_edges_counterexample"
   ],
   "note": "References, coordinates, degrees, knot runs and weights are right for all curves and surfaces, and shape entities refer to the right kinds. False: in every exported surface the product category lacks a closing parenthesis, product entities refer to the wrong kinds, and edges do not run along their curves."
  },
  {
   "property": "C73",
   "status": "partial",
   "theorems": [
    "Cmm.Ssx.C73_surface_partial",
    "Cmm.Ssx.C73_singular_throws",
    "Cmm.Ssx.C73_plane_never_moves",
    "Cmm.Ssx.C73_surface_counterexample",
    "Cmm.Ssx.C73_curve_partial",
    "Cmm.Ssx.C73_line_never_moves",
    "Cmm.Ssx.C73_curve_counterexample"
   ],
   "note": "Violated by the code: on every line and plane the start parameter is returned (C73_line_never_moves, C73_plane_never_moves). Proved: results are Newton/Gauss-Newton iterates and which stopping test ended the search."
  },
  {
   "property": "C74",
   "status": "partial",
   "theorems": [
    "Cmm.Nurbs.C74_polynomial_on_spans",
    "Cmm.Nurbs.C74_spans_cover",
    "Cmm.Nurbs.C74_derivative_partial",
    "Cmm.Nurbs.C74_derivative_list_partial",
    "Cmm.Nurbs.C74_real_derivative_partial",
    "Cmm.Nurbs.C74_high_degree_throws",
    "Cmm.Nurbs.C74_too_many_undefined",
    "Cmm.Nurbs.C74_degree_zero_undefined",
    "Cmm.Nurbs.C74_too_few_points_undefined",
    "Cmm.Nurbs.C74_unequal_weights_counterexample"
   ],
   "note": "Proved for equal weights and degree at most 3 (any valid knot vector, all orders), over ordered fields with polynomial derivatives and over the reals with HasDerivAt. Unequal weights give a wrong derivative (counterexample), degree 4 and above always throws, and more than degree + 1 entries are out of bounds: these are theorems too."
  },
  {
   "property": "C75",
   "status": "partial",
   "theorems": [
    "Cmm.Nurbs.C75_derivative_curve_partial",
    "Cmm.Nurbs.C75_agrees_with_derivative_partial",
    "Cmm.Nurbs.C75_defined_partial",
    "Cmm.Nurbs.C75_equal_weights_counterexample"
   ],
   "note": "Proved for weights equal to one, any degree; other equal weights give a wrong curve (counterexample)."
  },
  {
   "property": "C76",
   "status": "partial",
   "theorems": [
    "Cmm.Nurbs.C76_integrates_speed_partial",
    "Cmm.Nurbs.C76_nonneg_partial",
    "Cmm.Nurbs.C76_constant_speed_partial",
    "Cmm.Nurbs.C76_segment",
    "Cmm.Nurbs.C76_overloads",
    "Cmm.Nurbs.C76_length_at_segment",
    "Cmm.Nurbs.C76_rigid_motion_partial",
    "Cmm.Nurbs.C76_high_degree_throws",
    "Cmm.Nurbs.C76_unequal_weights_counterexample"
   ],
   "note": "Proved for equal weights and degree at most 3, exact arithmetic, square root with its contract. With different weights the value is wrong (counterexample); degree 4 and above throws (theorem). The segment and length_at theorems hold without restriction on the segment."
  },
  {
   "property": "C77",
   "status": "partial",
   "theorems": [
    "Cmm.Nurbs.C77_step",
    "Cmm.Nurbs.C77_derivative_fdm_partial",
    "Cmm.Nurbs.C77_exact_quadratic_partial",
    "Cmm.Nurbs.C77_derivatives_partial",
    "Cmm.Nurbs.C77_second_is_first",
    "Cmm.Nurbs.C77_second_derivative_counterexample",
    "Cmm.Nurbs.C77_derivative_u_partial",
    "Cmm.Nurbs.C77_derivative_v_partial"
   ],
   "note": "Exact error term for degree up to 4 and equal weights (unit weights for surfaces); second_derivative_fdm is the first derivative (counterexample)."
  },
  {
   "property": "C78",
   "status": "partial",
   "theorems": [
    "Cmm.Nurbs.C78_normal_perpendicular_partial",
    "Cmm.Nurbs.C78_short_normal_counterexample",
    "Cmm.Nurbs.C78_normal_defined"
   ],
   "note": "Perpendicularity and unit length proved where unitize scales; a short cross product is returned with another length (counterexample)."
  },
  {
   "property": "C79",
   "status": "proved",
   "theorems": [
    "Cmm.Newton.C79_newton_step",
    "Cmm.Newton.C79_error_bound"
   ],
   "note": "Exact arithmetic; the derivatives are those of the quadratic (the finite-difference gradients of the code are exact on quadratics, C37)."
  },
  {
   "property": "C80",
   "status": "proved",
   "theorems": [
    "Cmm.VecOps.C80_index",
    "Cmm.VecOps.C80_write",
    "Cmm.VecOps.C80_dot",
    "Cmm.VecOps.C80_cross",
    "Cmm.VecOps.C80_cross_plane",
    "Cmm.VecOps.C80_distance",
    "Cmm.VecOps.C80_projection",
    "Cmm.VecOps.C80_projection_plane",
    "Cmm.VecOps.C80_unit_plane",
    "Cmm.VecOps.C80_between"
   ],
   "note": "Exact arithmetic, square root with its contract."
  },
  {
   "property": "C81",
   "status": "proved",
   "theorems": [
    "Cmm.VecOps.C81_round_trip",
    "Cmm.VecOps.C81_ranges",
    "Cmm.VecOps.C81_round_trip_back",
    "Cmm.VecOps.C81_directions"
   ],
   "note": "Over the reals, with the C library's sqrt, acos, atan2, sin and cos as the real functions."
  },
  {
   "property": "C82",
   "status": "partial",
   "theorems": [
    "Cmm.VecOps.C82_meaning",
    "Cmm.VecOps.C82_reflexive_symmetric_partial",
    "Cmm.VecOps.C82_not_transitive_counterexample"
   ],
   "note": "Reflexive and symmetric; not transitive, and vec4 ignores the weight (counterexample)."
  },
  {
   "property": "C83",
   "status": "partial",
   "theorems": [
    "Cmm.VecOps.C83_homogeneous_partial",
    "Cmm.VecOps.C83_neon_partial",
    "Cmm.VecOps.C83_scalar_partial",
    "Cmm.VecOps.C83_vec4_counterexamples",
    "Cmm.VecOps.C83_unitize_partial",
    "Cmm.VecOps.C83_dist_counterexample",
    "Cmm.VecOps.C83_dist_partial",
    "Cmm.VecOps.C83_dot_products_undefined"
   ],
   "note": "What holds is proved; the platform difference, the stale weights, the wrong dist and the out-of-bounds dot_products are counterexample theorems."
  },
  {
   "property": "C84",
   "status": "partial",
   "theorems": [
    "Cmm.Hash.C84_key_separates",
    "Cmm.Hash.C84_vec3_separates",
    "Cmm.Hash.C84_vec2_separates",
    "Cmm.Hash.C84_pair_counterexample",
    "Cmm.Hash.C84_swap",
    "Cmm.Hash.C84_pair_first_partial",
    "Cmm.Hash.C84_normal_counterexample"
   ],
   "note": "Proved for vec2, vec3 and the polyline keys; the pair hash ignores the second number and the hash of every direction is 1 (theorems)."
  },
  {
   "property": "C85",
   "status": "proved",
   "theorems": [
    "Cmm.Nurbs.C85_curve_evaluate",
    "Cmm.Nurbs.C85_curve_evaluate_end",
    "Cmm.Nurbs.C85_curve_evaluate_defined",
    "Cmm.Nurbs.C85_curve_insert",
    "Cmm.Nurbs.C85_curve_split_throws_iff",
    "Cmm.Nurbs.C85_curve_split_undefined",
    "Cmm.Nurbs.C85_curve_constructors",
    "Cmm.Nurbs.C85_curve_queries",
    "Cmm.Nurbs.C85_surface_constructor",
    "Cmm.Nurbs.C85_surface_evaluate",
    "Cmm.Nurbs.C85_surface_evaluate_defined",
    "Cmm.Nurbs.C85_surface_evaluate_row",
    "Cmm.Nurbs.C85_surface_net",
    "Cmm.Nurbs.C85_surface_derivative",
    "Cmm.Nurbs.C85_transpose",
    "Cmm.Nurbs.C85_surface_insert",
    "Cmm.Nurbs.C85_surface_split",
    "Cmm.Nurbs.C85_isocurve"
   ],
   "note": "Exact outcome (value, exception, out of bounds) of each call in the model; the out-of-bounds conditions are sufficient ones."
  },
  {
   "property": "C86",
   "status": "proved",
   "theorems": [
    "Cmm.Nurbs.C86_curve",
    "Cmm.Nurbs.C86_surface_u",
    "Cmm.Nurbs.C86_surface_v",
    "Cmm.Nurbs.C86_surface",
    "Cmm.Nurbs.C86_curve_covers",
    "Cmm.Nurbs.C86_periodic_counterexample"
   ],
   "note": "Exact arithmetic. Hypothesis: knots clamped with exact multiplicities and distinct knots farther apart than the split tolerance (1e-12 curves, 1e-7 surfaces); curves with equal weights, because splitting a curve with other weights changes it (C30). Periodic curves: counterexample theorem."
  },
  {
   "property": "C87",
   "status": "partial",
   "theorems": [
    "Cmm.Nurbs.C87_periodic_refused",
    "Cmm.Nurbs.C87_apart_refused",
    "Cmm.Nurbs.C87_join_partial",
    "Cmm.Nurbs.C87_shape_counterexample",
    "Cmm.Nurbs.C87_closing_counterexample"
   ],
   "note": "Refusals, orientation, ends and degree of the result proved; shape and closing test are violated (counterexample theorems)."
  },
  {
   "property": "C88",
   "status": "partial",
   "theorems": [
    "Cmm.Nurbs.C88_same_count",
    "Cmm.Nurbs.C88_other_count",
    "Cmm.Nurbs.C88_set_knots",
    "Cmm.Nurbs.C88_set_degree_counterexample",
    "Cmm.Nurbs.C88_set_degree_example_counterexample",
    "Cmm.Nurbs.C88_set_degree_partial",
    "Cmm.Nurbs.C88_points3d_partial",
    "Cmm.Nurbs.C88_points3d_counterexample",
    "Cmm.Nurbs.C88_surface_constructor"
   ],
   "note": "set_control_points, set_knots and the surface constructor proved; set_degree and get_control_points3d violate the claim (counterexample theorems)."
  },
  {
   "property": "C89",
   "status": "proved",
   "theorems": [
    "Cmm.Gauss.C89_control_net",
    "Cmm.Gauss.C89_gauss_map",
    "Cmm.Gauss.C89_high_degree",
    "Cmm.Gauss.C89_single_row",
    "Cmm.Gauss.C89_class",
    "Cmm.Gauss.C89_class_subdivide"
   ],
   "note": "Exact arithmetic, degrees 1 to 4 in both directions; C89_high_degree shows the overflow for higher degrees, C89_single_row the undefined behaviour for degenerate nets."
  },
  {
   "property": "C90",
   "status": "partial",
   "theorems": [
    "Cmm.Gauss.C90_projection",
    "Cmm.Gauss.C90_test_outcomes",
    "Cmm.Gauss.C90_test_sound_partial",
    "Cmm.Gauss.C90_separable_partial",
    "Cmm.Gauss.C90_values_partial",
    "Cmm.Gauss.C90_flat",
    "Cmm.Gauss.C90_class",
    "Cmm.Gauss.C90_scaled_counterexample",
    "Cmm.Gauss.C90_cone_counterexample",
    "Cmm.Gauss.C90_collinear_counterexample"
   ],
   "note": "Proved: the projection, the outcomes, and that a true answer separates the hulls of the unit vectors of the control points (below the centre, in general position); for unit control normals no two values of the maps agree or are opposite. Missing (false): the claim for normals that are shorter than one, for cones and for collinear projections (three counterexample theorems)."
  },
  {
   "property": "C91",
   "status": "partial",
   "theorems": [
    "Cmm.Gauss.C91_points_genuine",
    "Cmm.Gauss.C91_patches",
    "Cmm.Gauss.C91_terminates",
    "Cmm.Gauss.C91_complete_partial",
    "Cmm.Gauss.C91_start_points_genuine",
    "Cmm.Gauss.C91_start_terminates",
    "Cmm.Gauss.C91_start_complete_partial",
    "Cmm.Gauss.C91_start_patches",
    "Cmm.Gauss.C91_small_pair",
    "Cmm.Gauss.C91_crossing_counterexample",
    "Cmm.Gauss.C91_volume_counterexample",
    "Cmm.Gauss.C91_bilinear_partial"
   ],
   "note": "Proved: termination, genuineness of points, provenance of patches, and that every common point lies in a pair of parts that was reported as a point, handed to the boundary search, or dropped because the overlap of the boxes is thin. Contracts: convex_hull3d preserves hulls; the curve-surface intersection is arbitrary. Missing (false): dropped pairs (two counterexample theorems). Coverage assumes that the hull routine loses no control point of a part; for surfaces of degree one no such assumption is needed (C91_bilinear_partial)."
  },
  {
   "property": "C92",
   "status": "proved",
   "theorems": [
    "Cmm.Nurbs.C92_surface_box_least",
    "Cmm.Nurbs.C92_curve_box_least",
    "Cmm.Nurbs.C92_split_u",
    "Cmm.Nurbs.C92_split_v",
    "Cmm.Nurbs.C92_subdivide",
    "Cmm.Nurbs.C92_curve_split",
    "Cmm.Nurbs.C92_negative_weight_counterexample"
   ],
   "note": "With negative weights it fails (counterexample theorem); the domain of the statement excludes them."
  },
  {
   "property": "C93",
   "status": "proved",
   "theorems": [
    "Cmm.Nurbs.C93_leibniz",
    "Cmm.Nurbs.C93_quotient_rule",
    "Cmm.Nurbs.C93_undefined"
   ],
   "note": "The functions are elements of any commutative ring with two commuting derivations and an evaluation homomorphism (polynomials, rational or smooth functions)."
  },
  {
   "property": "C94",
   "status": "proved",
   "theorems": [
    "Cmm.Nurbs.C94_derivative",
    "Cmm.Nurbs.C94_shape",
    "Cmm.Nurbs.C94_defined"
   ],
   "note": ""
  },
  {
   "property": "C95",
   "status": "partial",
   "theorems": [
    "Cmm.Nurbs.C95_surface_derivative_partial",
    "Cmm.Nurbs.C95_shape",
    "Cmm.Nurbs.C95_defined",
    "Cmm.Nurbs.C95_short_row",
    "Cmm.Nurbs.C95_range_counterexample"
   ],
   "note": "False for derivatives in the second direction when its range does not begin at 0 (counterexample theorem); proved for every other case."
  },
  {
   "property": "C96",
   "status": "proved",
   "theorems": [
    "Cmm.Nurbs.C96_refinement",
    "Cmm.Nurbs.C96_nothing_to_insert",
    "Cmm.Nurbs.C96_beyond_end",
    "Cmm.Nurbs.C96_undefined",
    "Cmm.Nurbs.C96_short_knots",
    "Cmm.Nurbs.C96_before_start_counterexample"
   ],
   "note": ""
  },
  {
   "property": "C97",
   "status": "partial",
   "theorems": [
    "Cmm.Nurbs.C97_after_insertion_partial",
    "Cmm.Nurbs.C97_roundtrip_counterexample",
    "Cmm.Nurbs.C97_not_removable_counterexample",
    "Cmm.Nurbs.C97_shape_partial",
    "Cmm.Nurbs.C97_first_span_undefined",
    "Cmm.Nurbs.C97_zero",
    "Cmm.Nurbs.C97_never_throws",
    "Cmm.Nurbs.C97_no_knot_undefined",
    "Cmm.Nurbs.C97_tolerance"
   ],
   "note": "False: the points after the removed one are not moved up, so the last point is lost, and the number of points falls even when the removal is refused (counterexample theorems). Proved: the exact result after one insertion, the number of points, and which points cannot change."
  },
  {
   "property": "C98",
   "status": "partial",
   "theorems": [
    "Cmm.SBox.C98_start_partial",
    "Cmm.SBox.C98_end_is_next",
    "Cmm.SBox.C98_wedge_partial",
    "Cmm.SBox.C98_symmetric",
    "Cmm.SBox.C98_separable_partial",
    "Cmm.SBox.C98_outcome",
    "Cmm.SBox.C98_wedge_counterexample",
    "Cmm.SBox.C98_separation_counterexample"
   ],
   "note": "False: the stored end is the angle next to the start, so a wedge of three points leaves one out, and wedges that cross the cut are compared as if they did not (counterexample theorems, the second with the real square root and atan2). Proved: the start is the angle after the largest gap, the end is the next angle, wedges of up to two points are right, the verdict is right for wedges that do not cross the cut, symmetry, and that only empty sets are undefined."
  },
  {
   "property": "C99",
   "status": "partial",
   "theorems": [
    "Cmm.Nurbs.C99_result_partial",
    "Cmm.Nurbs.C99_defined_iff",
    "Cmm.Nurbs.C99_size_kept",
    "Cmm.Nurbs.C99_new_size",
    "Cmm.Nurbs.C99_point_iff",
    "Cmm.Nurbs.C99_nonsquare_counterexample",
    "Cmm.Nurbs.C99_cells_counterexample",
    "Cmm.Nurbs.C99_point_counterexample",
    "Cmm.Nurbs.C99_reused_counterexample"
   ],
   "note": "False: the points of b are read transposed, so grids that are not square are undefined; the product of two points uses a wrong formula; the size of the result is not set; a reused result keeps its row lengths (counterexample theorems). Proved: the exact result for a fresh object, when the call is defined, when the product of two points is right, and that the size is never changed."
  },
  {
   "property": "C100",
   "status": "proved",
   "theorems": [
    "Cmm.Nurbs.C100_curve",
    "Cmm.Nurbs.C100_constructed",
    "Cmm.Nurbs.C100_surface",
    "Cmm.Nurbs.C100_sharp"
   ],
   "note": "Over the real numbers; C100_sharp shows that a knot repeated degree + 1 times can make the curve jump."
  },
  {
   "property": "C101",
   "status": "proved",
   "theorems": [
    "Cmm.Nurbs.C101_local",
    "Cmm.Nurbs.C101_move",
    "Cmm.Nurbs.C101_surface"
   ],
   "note": ""
  },
  {
   "property": "C102",
   "status": "partial",
   "theorems": [
    "Cmm.Nurbs.C102_constructor_partial",
    "Cmm.Nurbs.C102_make_periodic_partial",
    "Cmm.Nurbs.C102_interval_counterexample",
    "Cmm.Nurbs.C102_open_counterexample"
   ],
   "note": "Proved: for a constructed periodic curve, and for a curve made periodic whose points did not repeat before, position and the first degree - 1 derivatives agree at the two ends of the valid parameter range. False: interval() reports the whole knot vector, whose ends are not the ends of the closed curve, and a clamped curve that repeats its points is reported as periodic although it is open (counterexample theorems)."
  },
  {
   "property": "C103",
   "status": "partial",
   "theorems": [
    "Cmm.Nurbs.C103_copy",
    "Cmm.Nurbs.C103_moved_partial",
    "Cmm.Nurbs.C103_moved_open_partial",
    "Cmm.Nurbs.C103_same_answers",
    "Cmm.Nurbs.C103_moved_counterexample",
    "Cmm.Nurbs.C103_points_without_weights",
    "Cmm.Nurbs.C103_default_cubic",
    "Cmm.Nurbs.C103_default_polyline",
    "Cmm.Nurbs.C103_blank",
    "Cmm.Nurbs.C103_sized_then_set",
    "Cmm.Nurbs.C103_surface_without_weights",
    "Cmm.Nurbs.C103_empty_surface"
   ],
   "note": "False for moves: the move constructor drops the periodic flag, so a later set_control_points builds other knots (counterexample). Proved: copies and assignments for all histories; moves of curves without the flag, and of all curves for histories without set_control_points; agreement of the constructors."
  },
  {
   "property": "C104",
   "status": "partial",
   "theorems": [
    "Cmm.Nurbs.C104_constructors",
    "Cmm.Nurbs.C104_history_partial",
    "Cmm.Nurbs.C104_stale_counterexample",
    "Cmm.Nurbs.C104_ccx_fresh",
    "Cmm.Nurbs.C104_unbuilt_counterexample",
    "Cmm.Nurbs.C104_surface_counterexample"
   ],
   "note": "False: set_control_points leaves the old box, so ccx misses intersections; get_derivative and the constructor from a size leave an empty box; aabb() of a surface is never computed (counterexamples). Proved: all histories of the calls with unit weights in which bbox() follows the last set_control_points."
  },
  {
   "property": "C105",
   "status": "proved",
   "theorems": [
    "Cmm.BVH.C105_top_down_split",
    "Cmm.BVH.C105_bottom_up_rounds"
   ],
   "note": ""
  },
  {
   "property": "C106",
   "status": "proved",
   "theorems": [
    "Cmm.BVH.C106_traverse",
    "Cmm.BVH.C106_pairs",
    "Cmm.BVH.C106_built",
    "Cmm.BVH.C106_inner_object_counterexample"
   ],
   "note": "The counterexample theorem shows that the condition on nodes with an object is needed."
  },
  {
   "property": "C107",
   "status": "partial",
   "theorems": [
    "Cmm.Hull3d.C107_few",
    "Cmm.Hull3d.C107_plane_partial",
    "Cmm.Hull3d.C107_space_partial",
    "Cmm.Hull3d.C107_kind",
    "Cmm.Hull3d.C107_output_kept_counterexample",
    "Cmm.Hull3d.C107_counterexample",
    "Cmm.Hull3d.C107_plane_points_partial",
    "Cmm.Hull3d.C107_integer_partial"
   ],
   "note": "False in general (C107_counterexample, C107_output_kept_counterexample). Proved for points of one non-vertical plane that are coarse enough in x and y, for points in space given the contract of the third-party Quickhull class, for points in space with integer coordinates up to 4096 of which no four are coplanar with the modelled Quickhull in place (C107_integer_partial), and for the plane overload; the kind is characterised as the number of points returned."
  },
  {
   "property": "C108",
   "status": "proved",
   "theorems": [
    "Cmm.Sep.C108_classification",
    "Cmm.Sep.C108_point_in_polygon",
    "Cmm.Sep.C108_notch_counterexample"
   ],
   "note": "C108_notch_counterexample shows that convexity is needed."
  },
  {
   "property": "C109",
   "status": "proved",
   "theorems": [
    "Cmm.Sep.C109_plain",
    "Cmm.Sep.C109_outward",
    "Cmm.Sep.C109_unit",
    "Cmm.Sep.C109_reuse_counterexample",
    "Cmm.Sep.C109_unique",
    "Cmm.Sep.C109_unique_throws"
   ],
   "note": "C109_reuse_counterexample shows that the vector must be empty for the normalised normals."
  },
  {
   "property": "C110",
   "status": "partial",
   "theorems": [
    "Cmm.Files.C110_curves_roundtrip_partial",
    "Cmm.Files.C110_not_opened",
    "Cmm.Files.C110_report_partial",
    "Cmm.Files.C110_late_failure_counterexample",
    "Cmm.Files.C110_crash_partial",
    "Cmm.Files.C110_crash_loses_file_counterexample",
    "Cmm.Files.C110_view_history",
    "Cmm.Files.C110_view_second",
    "Cmm.Files.C110_view_errors",
    "Cmm.Files.C110_view_undefined_iff",
    "Cmm.Files.C110_view_gap",
    "Cmm.Files.C110_view_incomplete",
    "Cmm.Files.C110_view_torn_counterexample"
   ],
   "note": "Violated: a failure while the stream is destroyed is reported as success (C110_late_failure_counterexample), a crash destroys the old file and leaves one that is read out of bounds (C110_crash_loses_file_counterexample), an interrupted overwrite of a view is accepted as a mixture (C110_view_torn_counterexample). Everything else of the statement is proved."
  },
  {
   "property": "C111",
   "status": "partial",
   "theorems": [
    "Cmm.Quick.C111_hull_partial",
    "Cmm.Quick.C111_contract_partial",
    "Cmm.Quick.C111_few",
    "Cmm.Quick.C111_flag_counterexample",
    "Cmm.Quick.C111_plane_counterexample",
    "Cmm.Quick.C111_small_counterexample"
   ],
   "note": "Proved for more than four points in general position with integer coordinates up to ten million, if the uninitialised member lower_dimensional_hull_ reads as false (C111_hull_partial). Violated otherwise: with the member true only four points are returned (C111_flag_counterexample), a square loses a corner (C111_plane_counterexample), a tetrahedron of size one millionth gives nothing (C111_small_counterexample)."
  },
  {
   "property": "C112",
   "status": "proved",
   "theorems": [
    "Cmm.Quick.C112_dimension",
    "Cmm.Quick.C112_furthest"
   ],
   "note": ""
  },
  {
   "property": "C113",
   "status": "partial",
   "theorems": [
    "Cmm.Quick.C113_local_convexity",
    "Cmm.Quick.C113_check",
    "Cmm.Quick.C113_facets_partial"
   ],
   "note": "Proved if the uninitialised member lower_dimensional_hull_ reads as false; if it reads as true only the initial tetrahedron is returned (C111_flag_counterexample)."
  },
  {
   "property": "C114",
   "status": "proved",
   "theorems": [
    "Cmm.Quick.C114_plane"
   ],
   "note": ""
  },
  {
   "property": "C115",
   "status": "partial",
   "theorems": [
    "Cmm.Text.C115_point",
    "Cmm.Text.C115_tie",
    "Cmm.Text.C115_box",
    "Cmm.Text.C115_points",
    "Cmm.Text.C115_objects",
    "Cmm.Text.C115_comma",
    "Cmm.Text.C115_tree_partial",
    "Cmm.Text.C115_one_child_counterexample",
    "Cmm.Text.C115_one_child_partial"
   ],
   "note": "Proved for points, boxes, lists and trees in which every node has two children or none, as build_bvh makes them. A node with a left child only is printed like one with a right child only (C115_one_child_counterexample)."
  },
  {
   "property": "C116",
   "status": "partial",
   "theorems": [
    "Cmm.Text.C116_vec2_partial",
    "Cmm.Text.C116_vec3_counterexample",
    "Cmm.Text.C116_ambiguous_counterexample",
    "Cmm.Text.C116_first_partial"
   ],
   "note": "Proved for vec2 and for the first coordinate of the others. False for vec3 and vec4: no separator between the last numbers, so no vec3 reads as a point and different points are written alike (counterexamples)."
  },
  {
   "property": "C117",
   "status": "partial",
   "theorems": [
    "Cmm.Text.C117_stream_partial",
    "Cmm.Text.C117_format_real_partial",
    "Cmm.Text.C117_vector_partial",
    "Cmm.Text.C117_precision_counterexample",
    "Cmm.Text.C117_real_iff",
    "Cmm.Text.C117_whole_counterexample"
   ],
   "note": "Proved: relative error at most 5e-6 (5e-15 for formatReal), exact for six (fifteen) significant digits, and exactly which numbers give REAL tokens. False: 1234567 and 1234568 are exported alike, and no whole number is exported as a REAL (counterexamples)."
  },
  {
   "property": "C118",
   "status": "partial",
   "theorems": [
    "Cmm.Utils.C118_column_partial",
    "Cmm.Utils.C118_square_iff",
    "Cmm.Utils.C118_tall_counterexample"
   ],
   "note": "Proved if there are as many rows as the first row has entries, with the exact result if there are fewer; with more rows the output is written out of bounds (C118_tall_counterexample)."
  },
  {
   "property": "C119",
   "status": "partial",
   "theorems": [
    "Cmm.Utils.C119_large_partial",
    "Cmm.Utils.C119_small_counterexample",
    "Cmm.Utils.C119_zero_partial"
   ],
   "note": "Proved from 1e-12 on; below it is less than half the distance (C119_small_counterexample)."
  },
  {
   "property": "C120",
   "status": "proved",
   "theorems": [
    "Cmm.Step.C120_unique",
    "Cmm.Step.C120_file",
    "Cmm.Step.C120_curve",
    "Cmm.Step.C120_time",
    "Cmm.Step.C120_not_opened",
    "Cmm.Step.C120_zero_weight_counterexample",
    "Cmm.Step.C120_vectors",
    "Cmm.Step.C120_patch_text"
   ],
   "note": "For exports that do not run into undefined behaviour. Numbers are accepted in any decimal notation: whether they are REAL tokens is C117, whether instances are complete and well formed is C57 and C72."
  },
  {
   "property": "C121",
   "status": "proved",
   "theorems": [
    "Cmm.Nurbs.C121_basis_functions",
    "Cmm.Nurbs.C121_curve_error",
    "Cmm.Nurbs.C121_curve_double",
    "Cmm.Nurbs.C121_surface_error",
    "Cmm.Nurbs.C121_surface_double",
    "Cmm.Nurbs.C121_end_point_counterexample",
    "Cmm.Nurbs.C121_box_counterexample"
   ],
   "note": "Rounding is any monotone function with relative error u (no overflow, underflow or NaN, no fused multiply-add). The two counterexample theorems prove the last sentence."
  },
  {
   "property": "C122",
   "status": "partial",
   "theorems": [
    "Cmm.C122_neon_partial",
    "Cmm.C122_x86_counterexample"
   ],
   "note": "True for NEON. False for x86-64: the aligned loads of max are misaligned at every address, so the four operations are undefined behaviour there (C122_x86_counterexample). All other theorems about boxes are about the NEON and scalar paths."
  },
  {
   "property": "C123",
   "status": "partial",
   "theorems": [
    "Cmm.KDHeap.C123_history_partial",
    "Cmm.KDHeap.C123_no_leak_partial",
    "Cmm.KDHeap.C123_nearest_partial",
    "Cmm.KDHeap.C123_copy_counterexample",
    "Cmm.KDHeap.C123_assign_counterexample",
    "Cmm.KDHeap.C123_insert_failure_counterexample",
    "Cmm.KDHeap.C123_build_failure_counterexample",
    "Cmm.KDHeap.C123_dead_queries"
   ],
   "note": "Proved for all histories without copies and assignments in which memory suffices: the heap code refines the trees of C05-C07, the live nodes are exactly those of the living objects. False otherwise: copying any non-empty tree and destroying both is undefined (C123_copy_counterexample), assigning over a tree leaks it (C123_assign_counterexample), an exception in build leaves a dangling root (C123_build_failure_counterexample), an exception in insert leaves size() one too large (C123_insert_failure_counterexample)."
  },
  {
   "property": "C124",
   "status": "partial",
   "theorems": [
    "Cmm.MVHeap.C124_history_partial",
    "Cmm.MVHeap.C124_misuse_partial",
    "Cmm.MVHeap.C124_deserialize_counterexample",
    "Cmm.MVHeap.C124_duplicate_counterexample"
   ],
   "note": "Proved for all careful histories without generated copies: nothing is undefined, and the blocks in use are those of the living copies plus one per deserialize. False otherwise: each deserialize leaks its block (C124_deserialize_counterexample), duplicating a managing view frees its block twice (C124_duplicate_counterexample)."
  },
  {
   "property": "C125",
   "status": "partial",
   "theorems": [
    "Cmm.BVH.C125_arithmetic_partial",
    "Cmm.BVH.C125_no_nan_partial",
    "Cmm.BVH.C125_top_down_partial",
    "Cmm.BVH.C125_top_down_finds_partial",
    "Cmm.BVH.C125_sort_keys_partial",
    "Cmm.BVH.C125_points_partial",
    "Cmm.BVH.C125_points_counterexample",
    "Cmm.BVH.C125_bottom_up_counterexample"
   ],
   "note": "Proved for the top-down builder and for lists of points that begin with a point without NaN. False for the bottom-up builder (C125_bottom_up_counterexample) and when the first point has a NaN (C125_points_counterexample)."
  },
  {
   "property": "C126",
   "status": "partial",
   "theorems": [
    "Cmm.KD.C126_size_partial",
    "Cmm.KD.C126_range_sound_partial",
    "Cmm.KD.C126_range_last_partial",
    "Cmm.KD.C126_nearest_partial",
    "Cmm.KD.C126_range_counterexample",
    "Cmm.KD.C126_nearest_counterexample"
   ],
   "note": "Proved: every point counts, range search is sound for all sequences and exact if the NaN points come last, nearest neighbour is right if the first point has no NaN. False otherwise (C126_range_counterexample, C126_nearest_counterexample). build with NaN is undefined (nth_element) and not modelled."
  },
  {
   "property": "C127",
   "status": "proved",
   "theorems": [
    "Cmm.Nurbs.C127_insertion_error",
    "Cmm.Nurbs.C127_insertion_double",
    "Cmm.Nurbs.C127_unit_weights",
    "Cmm.Nurbs.C127_weights_counterexample"
   ],
   "note": "Overflow and underflow are not modelled (the relative error model). Equal weights other than one do not stay equal (C127_weights_counterexample); with weights one they do (C127_unit_weights)."
  },
  {
   "property": "C128",
   "status": "partial",
   "theorems": [
    "Cmm.Alias.C128_others_kept_partial",
    "Cmm.Alias.C128_cross_partial",
    "Cmm.Alias.C128_cross_first",
    "Cmm.Alias.C128_cross_second",
    "Cmm.Alias.C128_cross_counterexample",
    "Cmm.Alias.C128_sub_add_partial",
    "Cmm.Alias.C128_cross43_partial",
    "Cmm.Alias.C128_cross43_counterexample",
    "Cmm.Alias.C128_projection_partial",
    "Cmm.Alias.C128_projection_counterexample",
    "Cmm.Alias.C128_add_self_partial",
    "Cmm.Alias.C128_ray_partial",
    "Cmm.Alias.C128_line_partial",
    "Cmm.Alias.C128_segment_partial",
    "Cmm.Alias.C128_start_counterexample",
    "Cmm.Alias.C128_direction_counterexample",
    "Cmm.Alias.C128_triangle_partial",
    "Cmm.Alias.C128_plane_partial",
    "Cmm.Alias.C128_segments_partial",
    "Cmm.Alias.C128_segments_counterexample",
    "Cmm.Alias.C128_ofSpherical_partial",
    "Cmm.Alias.C128_toSpherical_partial",
    "Cmm.Alias.C128_toSpherical_counterexample",
    "Cmm.Alias.C128_derivative_partial",
    "Cmm.Alias.C128_self_derivative_counterexample",
    "Cmm.Alias.C128_self_derivative_undefined",
    "Cmm.Alias.C128_self_derivative_defined"
   ],
   "note": "True for sub, add, +=, closestPointOnTriangle, plane::evaluateInv, spherical_to_cartesian; for cross, vectorProjection, the closest points on rays, lines and segments, segmentsDistance and cartesian_to_spherical only for the outputs named in the theorems (the counterexamples show the other cases); false for NURBSCurve::get_derivative of a curve into itself."
  },
  {
   "property": "C129",
   "status": "partial",
   "theorems": [
    "Cmm.Reuse.C129_partial_derivative_partial",
    "Cmm.Reuse.C129_partial_derivative_counterexample",
    "Cmm.Reuse.C129_cross_partial",
    "Cmm.Reuse.C129_no_columns",
    "Cmm.Reuse.C129_ragged",
    "Cmm.Reuse.C129_cross_counterexample",
    "Cmm.Reuse.C129_to_bezier_partial",
    "Cmm.Reuse.C129_to_bezier_counterexample",
    "Cmm.Reuse.C129_empty",
    "Cmm.Reuse.C129_default",
    "Cmm.Reuse.C129_rebuild_partial",
    "Cmm.Reuse.C129_rebuild_counterexample",
    "Cmm.Reuse.C129_derivative_net_partial",
    "Cmm.Reuse.C129_derivative_net_counterexample"
   ],
   "note": "True for outputs of the right shape (and, for to_bezier, weights one); the counterexamples show all other cases for rectangular outputs. cross always adds to the old content."
  },
  {
   "property": "C130",
   "status": "partial",
   "theorems": [
    "Cmm.Csx.C130_meeting_pair_kept",
    "Cmm.Csx.C130_empty_answer_partial",
    "Cmm.Csx.C130_weights_counterexample"
   ],
   "note": "Proved for curves with weights one; with other weights a meeting pair is discarded (counterexample)."
  },
  {
   "property": "C131",
   "status": "partial",
   "theorems": [
    "Cmm.Csx.C131_reports",
    "Cmm.Csx.C131_newton_returns",
    "Cmm.Csx.C131_crossing_found_partial",
    "Cmm.Csx.C131_short_domain",
    "Cmm.Csx.C131_short_domain_counterexample"
   ],
   "note": "Reports and the return of the Newton search are proved in general; that a crossing is found is proved for straight segments and parallelograms. It is false in general: the parameter tolerance, computed from the curve, is also applied to the parameter intervals of the surface, so a surface parametrised over short intervals never gives a report (C131_short_domain_counterexample). The search may also end with an exception (C55)."
  },
  {
   "property": "C132",
   "status": "partial",
   "theorems": [
    "Cmm.Gauss.C132_patch_ends_partial",
    "Cmm.Gauss.C132_start_patch_ends_partial",
    "Cmm.Gauss.C132_outcomes",
    "Cmm.Gauss.C132_hull_partial",
    "Cmm.Gauss.C132_stored_u_counterexample"
   ],
   "note": "Points, tolerance and the parameters on the other surface are proved for the whole search; on the borders with fixed v the stored u is the relative position in the part, not the parameter (counterexample with the code's own curve-surface search)."
  },
  {
   "property": "C133",
   "status": "proved",
   "theorems": [
    "Cmm.Hull2d.C133_hull",
    "Cmm.Hull2d.C133_projection_hull",
    "Cmm.Hull2d.C133_set",
    "Cmm.Hull2d.C133_argument",
    "Cmm.Hull2d.C133_again",
    "Cmm.Hull2d.C133_lost_points"
   ],
   "note": "For points resolved by the tolerance 1e-9 (as C50); the refinement to the model of C50 and the use in the projection tests hold for all points."
  },
  {
   "property": "C134",
   "status": "partial",
   "theorems": [
    "Cmm.VecOps.C134_length_partial",
    "Cmm.VecOps.C134_distance_partial",
    "Cmm.VecOps.C134_underflow",
    "Cmm.VecOps.C134_overflow",
    "Cmm.VecOps.C134_unit_partial",
    "Cmm.VecOps.C134_conversion_partial",
    "Cmm.VecOps.C134_precision_counterexample"
   ],
   "note": "Proved with single precision (2^-23) for squared lengths between 2^-125 and 2^126; below and above the failure is proved for all vectors, and a counterexample to double precision."
  },
  {
   "property": "C135",
   "status": "partial",
   "theorems": [
    "Cmm.VecOps.C135_axes",
    "Cmm.VecOps.C135_vec4_axes",
    "Cmm.VecOps.C135_vec4",
    "Cmm.VecOps.C135_collinear_partial",
    "Cmm.VecOps.C135_short",
    "Cmm.VecOps.C135_project4",
    "Cmm.VecOps.C135_rounded_counterexample"
   ],
   "note": "Proved in exact arithmetic for vec3 longer than one; the failure is proved for every shorter vector, for every vec4 point with weight one, and with the rounding of the code for a long vector."
  },
  {
   "property": "C136",
   "status": "partial",
   "theorems": [
    "Cmm.Bind.C136_points",
    "Cmm.Bind.C136_four_columns",
    "Cmm.Bind.C136_undefined",
    "Cmm.Bind.C136_returns_partial",
    "Cmm.Bind.C136_zero_tolerance_counterexample"
   ],
   "note": "Proved for unit weights and at most 38 halvings, which covers the call of examples/cython_extension/main.py; narrow arrays and too few rows are undefined, tolerance zero aborts the process."
  },
  {
   "property": "C137",
   "status": "partial",
   "theorems": [
    "Cmm.Bind.C137_doubles",
    "Cmm.Bind.C137_new_net",
    "Cmm.Bind.C137_reused_net_partial",
    "Cmm.Bind.C137_reused_net_counterexample",
    "Cmm.Bind.C137_stale_and_ragged_counterexample"
   ],
   "note": "Numbers: proved for all vectors. Nets: proved for new nets and for nets with rows at least as wide; out-of-bounds write proved for every narrower first row."
  },
  {
   "property": "C138",
   "status": "proved",
   "theorems": [
    "Cmm.Nurbs.C138_local",
    "Cmm.Nurbs.C138_nan_iff",
    "Cmm.Nurbs.C138_parameter",
    "Cmm.Nurbs.C138_nan_knot",
    "Cmm.Nurbs.C138_surface_parameter",
    "Cmm.Nurbs.C138_end_counterexample"
   ],
   "note": "For any arithmetic on numbers. The end points of a clamped curve do not survive a NaN in an inner control point of the first or last piece (C138_end_counterexample), as the statement about pieces says."
  },
  {
   "property": "C139",
   "status": "partial",
   "theorems": [
    "Cmm.Nurbs.C139_insert_counterexample",
    "Cmm.Nurbs.C139_split_counterexample",
    "Cmm.Nurbs.C139_numbers_refused_partial"
   ],
   "note": "Numbers outside the interval are refused; NaN is not, for any curve."
  },
  {
   "property": "C140",
   "status": "proved",
   "theorems": [
    "Cmm.Num.C140_contract",
    "Cmm.Num.C140_least",
    "Cmm.Num.C140_status",
    "Cmm.Num.C140_unimodal",
    "Cmm.Num.C140_double"
   ],
   "note": "Overflow and underflow are not modelled; std::sqrt is assumed nearly exact and std::copysign exact (LibNear), which holds for correctly rounded double (doubleLib_near)."
  },
  {
   "property": "C141",
   "status": "proved",
   "theorems": [
    "Cmm.Num.C141_terminates",
    "Cmm.Num.C141_inside",
    "Cmm.Num.C141_composite",
    "Cmm.Num.C141_bounds",
    "Cmm.Num.C141_nonneg",
    "Cmm.Num.C141_double",
    "Cmm.Num.C141_residual"
   ],
   "note": "Overflow and underflow are not modelled. The comparison is with the rule applied to the computed function values; the distance to the true integral is C43 for exact arithmetic."
  },
  {
   "property": "C142",
   "status": "proved",
   "theorems": [
    "Cmm.Nurbs.C142_split_error",
    "Cmm.Nurbs.C142_split_double",
    "Cmm.Nurbs.C142_unit_weights"
   ],
   "note": "Overflow and underflow are not modelled. Periodic results and curves with different weights are the counterexamples of C30 and C127."
  },
  {
   "property": "C143",
   "status": "proved",
   "theorems": [
    "Cmm.Nurbs.C143_decompose",
    "Cmm.Nurbs.C143_covers_double"
   ],
   "note": "Overflow and underflow are not modelled. With other weights the computed weights of a piece differ (C127_weights_counterexample), which is why weights one are assumed."
  },
  {
   "property": "C144",
   "status": "proved",
   "theorems": [
    "Cmm.Ccx.C144_reports_meet",
    "Cmm.Ccx.C144_returns",
    "Cmm.Ccx.C144_double"
   ],
   "note": "Overflow and underflow are not modelled. Weights one and no inner knots are assumed (statement); the square root is any function with relative error up to 3u of the square, and double_sqrt_near shows the rounded real square root is one."
  },
  {
   "property": "C145",
   "status": "partial",
   "theorems": [
    "Cmm.Ccx.C145_shared_end_partial",
    "Cmm.Ccx.C145_parts_keep_end_partial",
    "Cmm.Ccx.C145_double_partial",
    "Cmm.Ccx.C145_missed_counterexample"
   ],
   "note": "False for the code: C145_missed_counterexample gives two straight lines in the plane z = 0.9 that cross in the middle and for which the search in double returns an empty list for every tolerance up to one. Proved: a common end of the two curves is always accounted for, in any arithmetic whatever (C145_shared_end_partial), and in double the call returns a nonempty list (C145_double_partial)."
  },
  {
   "property": "C146",
   "status": "proved",
   "theorems": [
    "Cmm.Nurbs.C146_insert_u",
    "Cmm.Nurbs.C146_insert_v",
    "Cmm.Nurbs.C146_grid_double"
   ],
   "note": "Overflow and underflow are not modelled. The error is between the two surfaces evaluated without rounding; C121 adds the error of the evaluation itself."
  },
  {
   "property": "C147",
   "status": "proved",
   "theorems": [
    "Cmm.Nurbs.C147_subdivide_mid_double",
    "Cmm.Nurbs.C147_split_u",
    "Cmm.Nurbs.C147_split_v",
    "Cmm.Nurbs.C147_subdivide_double"
   ],
   "note": "Overflow and underflow are not modelled. The error is between the surfaces evaluated without rounding; C121 adds the error of the evaluation itself."
  },
  {
   "property": "C148",
   "status": "proved",
   "theorems": [
    "Cmm.Nurbs.C148_surface_u",
    "Cmm.Nurbs.C148_surface_v",
    "Cmm.Nurbs.C148_surface",
    "Cmm.Nurbs.C148_double"
   ],
   "note": "Overflow and underflow are not modelled. The error is between the surfaces evaluated without rounding; C121 adds the error of the evaluation itself."
  },
  {
   "property": "C149",
   "status": "proved",
   "theorems": [
    "Cmm.Hull2d.C149_hull_double",
    "Cmm.Hull2d.C149_exact_double",
    "Cmm.Hull2d.C149_collinear_double",
    "Cmm.Hull2d.C149_large_counterexample"
   ],
   "note": "Overflow and underflow are not modelled. The conditions on the points are part of the statement; C149_large_counterexample shows that the bound on the coordinates cannot be dropped."
  },
  {
   "property": "C150",
   "status": "proved",
   "theorems": [
    "Cmm.Sep.C150_touch_counterexample",
    "Cmm.Sep.C150_common_corner",
    "Cmm.Sep.C150_distance_double",
    "Cmm.Sep.C150_gap_double",
    "Cmm.Sep.C150_overlap_double",
    "Cmm.Sep.C150_meet_counterexample"
   ],
   "note": "Overflow and underflow are not modelled. C150_meet_counterexample and C150_touch_counterexample show that the slack is needed: TOUCH depends on equal rounded projections, and nothing is claimed of the answer TOUCH."
  },
  {
   "property": "C151",
   "status": "proved",
   "theorems": [
    "Cmm.Sep.C151_exact_double",
    "Cmm.Sep.C151_inside_double",
    "Cmm.Sep.C151_outside_counterexample",
    "Cmm.Sep.C151_interior_counterexample"
   ],
   "note": "Overflow and underflow are not modelled. C151_outside_counterexample and C151_interior_counterexample show that the distance from the edges is needed."
  },
  {
   "property": "C152",
   "status": "proved",
   "theorems": [
    "Cmm.Sep.C152_gap_double",
    "Cmm.Sep.C152_sat2d_double",
    "Cmm.Sep.C152_meet_counterexample"
   ],
   "note": "Overflow and underflow are not modelled. C152_meet_counterexample shows that the slack is needed."
  },
  {
   "property": "C153",
   "status": "proved",
   "theorems": [
    "Cmm.VecFp.C153_commutative",
    "Cmm.VecFp.C153_zero",
    "Cmm.VecFp.C153_exchange",
    "Cmm.VecFp.C153_distance_zero",
    "Cmm.VecFp.C153_dot_error",
    "Cmm.VecFp.C153_distance_error",
    "Cmm.VecFp.C153_cross_error",
    "Cmm.VecFp.C153_orthogonal_counterexample",
    "Cmm.VecFp.C153_associative_counterexample"
   ],
   "note": "Overflow and underflow are not modelled: in double a squared distance of two different points can underflow to zero. Fused multiply-add is not modelled either: with it a cross product of a vector with itself need not be zero. The two counterexamples show which laws are lost."
  },
  {
   "property": "C154",
   "status": "proved",
   "theorems": [
    "Cmm.VecFp.C154_project_error",
    "Cmm.VecFp.C154_project_double",
    "Cmm.VecFp.C154_vectorProjection_error",
    "Cmm.VecFp.C154_vectorProjection_double",
    "Cmm.VecFp.C154_again_counterexample"
   ],
   "note": "Overflow and underflow are not modelled. C154_again_counterexample shows that idempotence, which holds in exact arithmetic (C80_projection), is lost in double."
  }
 ]
}