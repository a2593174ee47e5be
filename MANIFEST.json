{
 "claims": [
  {
   "property": "C01",
   "status": "proved",
   "theorems": [
    "Verif.UF.C01_same_set_iff_connected",
    "Verif.UF.C01_find_absent_is_undefined"
   ],
   "note": ""
  },
  {
   "property": "C02",
   "status": "proved",
   "theorems": [
    "Verif.UF.C02_find_canonical_and_pure"
   ],
   "note": ""
  },
  {
   "property": "C03",
   "status": "proved",
   "theorems": [
    "Verif.UF.C03_get_sets_partition"
   ],
   "note": ""
  },
  {
   "property": "C04",
   "status": "proved",
   "theorems": [
    "Verif.UF.C04_simple_same_set_iff_connected",
    "Verif.UF.C04_out_of_range_is_undefined"
   ],
   "note": ""
  },
  {
   "property": "C05",
   "status": "proved",
   "theorems": [
    "Verif.UF.C05_duf_find_is_least_connected",
    "Verif.UF.C05_duf_order_independent",
    "Verif.UF.C05_duf_get_roots"
   ],
   "note": ""
  },
  {
   "property": "C06",
   "status": "partial",
   "theorems": [
    "Verif.UF.C06_concurrent_unite_sound_partial",
    "Verif.UF.C06_concurrent_unite_complete_partial",
    "Verif.UF.C06_concurrent_unite_loses_update"
   ],
   "note": "Acyclicity, termination and soundness proved for every schedule; completeness is false of the code (lost update, witness proved) and proved only for schedules whose writes never overwrite a link."
  },
  {
   "property": "C07",
   "status": "proved",
   "theorems": [
    "Verif.Par.C07_parallel_for_at_most_once",
    "Verif.Par.C07_parallel_for_exactly_once",
    "Verif.Par.C07_parallel_for_terminates",
    "Verif.Par.C07_container_exactly_once",
    "Verif.Par.C07_zero_threads_never_finishes"
   ],
   "note": ""
  },
  {
   "property": "C08",
   "status": "proved",
   "theorems": [
    "Verif.Lat.C08_lattice_index_bijection",
    "Verif.Lat.C08_contains_iff_inBox"
   ],
   "note": ""
  },
  {
   "property": "C09",
   "status": "proved",
   "theorems": [
    "Verif.Lat.C09_partition_tiles",
    "Verif.Lat.C09_partition_defined",
    "Verif.Lat.C09_partition_succeeds",
    "Verif.Lat.C09_short_given_is_undefined"
   ],
   "note": ""
  },
  {
   "property": "C10",
   "status": "proved",
   "theorems": [
    "Verif.Lat.C10_extent_exact",
    "Verif.Lat.C10_extent_contains_core",
    "Verif.Lat.C10_no_ghost"
   ],
   "note": ""
  },
  {
   "property": "C11",
   "status": "proved",
   "theorems": [
    "Verif.Lat.C11_prime_factorization",
    "Verif.Lat.C11_zero_does_not_terminate"
   ],
   "note": ""
  },
  {
   "property": "C12",
   "status": "proved",
   "theorems": [
    "Verif.SRM.C12_from_to",
    "Verif.SRM.C12_to_from",
    "Verif.SRM.C12_to_integer_injective",
    "Verif.SRM.C12_dimensions_collide"
   ],
   "note": ""
  },
  {
   "property": "C13",
   "status": "proved",
   "theorems": [
    "Verif.SRM.C13_element_for_exactly_once",
    "Verif.SRM.C13_element_for_ordinal",
    "Verif.SRM.C13_element_for_interval",
    "Verif.SRM.C13_to_work_index_forgets_type"
   ],
   "note": ""
  },
  {
   "property": "C14",
   "status": "proved",
   "theorems": [
    "Verif.SRM.C14_sides",
    "Verif.SRM.C14_side_of",
    "Verif.SRM.C14_sides_side_of_dual",
    "Verif.SRM.C14_extreme_dimensions",
    "Verif.SRM.C14_facet_has_two_cofaces"
   ],
   "note": ""
  },
  {
   "property": "C15",
   "status": "proved",
   "theorems": [
    "Verif.SRM.C15_subdivision_is_kuhn",
    "Verif.SRM.C15_unit_simplices"
   ],
   "note": ""
  },
  {
   "property": "C16",
   "status": "proved",
   "theorems": [
    "Verif.SRM.C16_ordinal_interval_partition",
    "Verif.SRM.C16_times"
   ],
   "note": ""
  },
  {
   "property": "C56",
   "status": "proved",
   "theorems": [
    "Verif.SRM.C56_element_order",
    "Verif.SRM.C56_order_ignores_dimension"
   ],
   "note": "Across dimensions the order does not separate unequal elements; the negation is proved."
  },
  {
   "property": "C17",
   "status": "proved",
   "theorems": [
    "Verif.Gr.C17_bfs_visits_reachable"
   ],
   "note": ""
  },
  {
   "property": "C18",
   "status": "proved",
   "theorems": [
    "Verif.Gr.C18_components",
    "Verif.Gr.C18_components_criterion",
    "Verif.Gr.C18_components_nodes",
    "Verif.Gr.C18_components_bfs",
    "Verif.Gr.C18_bfs_needs_symmetry"
   ],
   "note": ""
  },
  {
   "property": "C21",
   "status": "proved",
   "theorems": [
    "Verif.Gr.C21_linear_components",
    "Verif.Gr.C21_is_loop",
    "Verif.Gr.C21_two_node_curve_is_a_loop"
   ],
   "note": ""
  },
  {
   "property": "C57",
   "status": "proved",
   "theorems": [
    "Verif.Gr.C57_label_components"
   ],
   "note": ""
  },
  {
   "property": "C58",
   "status": "partial",
   "theorems": [
    "Verif.Gr.C58_overlap_pairs",
    "Verif.Gr.C58_label_pairs_partial",
    "Verif.Gr.C58_same_label_is_dropped"
   ],
   "note": "The label version drops pairs with equal labels, so the full statement is false of it; the exact behaviour is proved, and the witness."
  },
  {
   "property": "C19",
   "status": "partial",
   "theorems": [
    "Verif.HK.C19_labelling_partial",
    "Verif.HK.C19_defined_iff",
    "Verif.HK.C19_out_of_bounds_witnesses"
   ],
   "note": "The full statement is false: the labels vector has nelem/2 entries and is indexed out of bounds on inputs such as checkerboards (C19_out_of_bounds_witnesses). C19_defined_iff characterises exactly when no out-of-bounds access happens; C19_labelling_partial proves the labelling correct in every such case."
  },
  {
   "property": "C20",
   "status": "proved",
   "theorems": [
    "Verif.Dij.C20_shortest_path",
    "Verif.Dij.C20_unreachable_undefined"
   ],
   "note": "Distances in any linearly ordered commutative monoid; unreachable destination is undefined behaviour (proved)."
  },
  {
   "property": "C22",
   "status": "proved",
   "theorems": [
    "Verif.TG.C22_event_type",
    "Verif.TG.C22_three_way_split_is_compound",
    "Verif.TG.C22_detect_events_interval",
    "Verif.TG.C22_detect_events",
    "Verif.TG.C22_timesteps",
    "Verif.TG.C22_detect_twice_doubles"
   ],
   "note": ""
  },
  {
   "property": "C59",
   "status": "proved",
   "theorems": [
    "Verif.TG.C59_relabel",
    "Verif.TG.C59_one_to_one_edge_keeps_label",
    "Verif.TG.C59_split_does_not_change_label"
   ],
   "note": ""
  },
  {
   "property": "C60",
   "status": "proved",
   "theorems": [
    "Verif.TG.C60_tracker_records_overlaps",
    "Verif.TG.C60_isolated_feature_is_lost",
    "Verif.TG.C60_undefined_uses"
   ],
   "note": ""
  },
  {
   "property": "C23",
   "status": "proved",
   "theorems": [
    "Verif.Curve.C23_adjust_time"
   ],
   "note": ""
  },
  {
   "property": "C24",
   "status": "partial",
   "theorems": [
    "Verif.Curve.C24_split_partial",
    "Verif.Curve.C24_split_loses_points"
   ],
   "note": "The full statement is false: split drops the first point of each new type run (C24_split_loses_points). Proved: pieces non-empty and of one type, concatenation is a subsequence, equal to the curve iff all types agree."
  },
  {
   "property": "C25",
   "status": "proved",
   "theorems": [
    "Verif.Curve.C25_intercept",
    "Verif.Curve.C25_unordered_and_empty"
   ],
   "note": "Under the documented precondition (time-ordered, non-empty)."
  },
  {
   "property": "C26",
   "status": "proved",
   "theorems": [
    "Verif.Curve.C26_rotate",
    "Verif.Curve.C26_reorder"
   ],
   "note": "rotate on an empty loop is undefined (part of C26_rotate)."
  },
  {
   "property": "C27",
   "status": "proved",
   "theorems": [
    "Verif.Curve.C27_statistics",
    "Verif.Curve.C27_empty_keeps_old"
   ],
   "note": ""
  },
  {
   "property": "C28",
   "status": "proved",
   "theorems": [
    "Verif.Curve.C28_ids",
    "Verif.Curve.C28_add",
    "Verif.Curve.C28_explicit_label",
    "Verif.Curve.C28_from_list_keeps_old_ids"
   ],
   "note": ""
  },
  {
   "property": "C61",
   "status": "proved",
   "theorems": [
    "Verif.Curve.C61_smooth_ordinal_types"
   ],
   "note": ""
  },
  {
   "property": "C62",
   "status": "proved",
   "theorems": [
    "Verif.Curve.C62_smooth_interval_types"
   ],
   "note": ""
  },
  {
   "property": "C63",
   "status": "proved",
   "theorems": [
    "Verif.Curve.C63_post_process",
    "Verif.Curve.C63_split_all_types",
    "Verif.Curve.C63_rotate_after_discard_undefined"
   ],
   "note": "The parsing of the operation string is not modelled."
  },
  {
   "property": "C64",
   "status": "proved",
   "theorems": [
    "Verif.Curve.C64_derive_velocity"
   ],
   "note": "Over an ordered field, no rounding."
  },
  {
   "property": "C65",
   "status": "proved",
   "theorems": [
    "Verif.Curve.C65_unwrap"
   ],
   "note": "Over an ordered field, no rounding."
  },
  {
   "property": "C66",
   "status": "proved",
   "theorems": [
    "Verif.Curve.C66_split_geo"
   ],
   "note": "Over an ordered field, no rounding."
  },
  {
   "property": "C29",
   "status": "proved",
   "theorems": [
    "Verif.SoS.C29_never_zero2",
    "Verif.SoS.C29_never_zero3",
    "Verif.SoS.C29_never_zero4",
    "Verif.SoS.C29_positive1_pm",
    "Verif.SoS.C29_positive2_pm",
    "Verif.SoS.C29_positive3_pm",
    "Verif.SoS.C29_perm1",
    "Verif.SoS.C29_perm2",
    "Verif.SoS.C29_perm3",
    "Verif.SoS.C29_swap2",
    "Verif.SoS.C29_swap3",
    "Verif.SoS.C29_equal_indices_not_antisymmetric"
   ],
   "note": "Coordinates are mathematical integers (no long long overflow). Distinct indices are necessary (witness theorem)."
  },
  {
   "property": "C30",
   "status": "proved",
   "theorems": [
    "Verif.SoS.C30_positive1",
    "Verif.SoS.C30_positive2",
    "Verif.SoS.C30_positive3",
    "Verif.SoS.C30_exact1",
    "Verif.SoS.C30_exact2",
    "Verif.SoS.C30_exact3",
    "Verif.SoS.C30_robust_smaller"
   ],
   "note": "Perturbation x_j + eps^(2^(d*(v-lo)+(d-1-j))) over the reals; spec in SoS/Spec.lean uses Mathlib's determinant. No overflow modelled."
  },
  {
   "property": "C31",
   "status": "proved",
   "theorems": [
    "Verif.SoS.C31_inside1",
    "Verif.SoS.C31_inside2",
    "Verif.SoS.C31_inside3",
    "Verif.SoS.C31_perm1",
    "Verif.SoS.C31_perm2",
    "Verif.SoS.C31_perm3"
   ],
   "note": "Inside = strictly positive barycentric coordinates."
  },
  {
   "property": "C32",
   "status": "proved",
   "theorems": [
    "Verif.SoS.C32_triangle",
    "Verif.SoS.C32_tetrahedron",
    "Verif.SoS.C32_pentatope",
    "Verif.SoS.C32_critical_point_2d",
    "Verif.SoS.C32_critical_point_3d"
   ],
   "note": "Derived from a general-position theorem proved for every dimension (SoS/Geo.faces_zero_or_two)."
  },
  {
   "property": "C33",
   "status": "proved",
   "theorems": [
    "Verif.Num.C33_det2",
    "Verif.Num.C33_det3",
    "Verif.Num.C33_det4",
    "Verif.Num.C33_adjugate2",
    "Verif.Num.C33_adjugate3",
    "Verif.Num.C33_matMul",
    "Verif.Num.C33_matVec2",
    "Verif.Num.C33_matVec3",
    "Verif.Num.C33_mat2x3Vec3",
    "Verif.Num.C33_mat2x2Mat2x2",
    "Verif.Num.C33_mat2x2Mat2x3",
    "Verif.Num.C33_mat2x3Mat3x2",
    "Verif.Num.C33_transpose3x2",
    "Verif.Num.C33_transpose4x3",
    "Verif.Num.C33_inverse2",
    "Verif.Num.C33_inverse3",
    "Verif.Num.C33_inverse4",
    "Verif.Num.C33_solve2",
    "Verif.Num.C33_solve3",
    "Verif.Num.C33_charPoly2",
    "Verif.Num.C33_charPoly2g",
    "Verif.Num.C33_charPoly3",
    "Verif.Num.C33_charPoly3g",
    "Verif.Num.C33_leastSquare3x2",
    "Verif.Num.C33_leastSquare3x2_2",
    "Verif.Num.C33_leastSquare4x3_3",
    "Verif.Num.C33_cross",
    "Verif.Num.C33_cross_det",
    "Verif.Num.C33_leastSquare2x1",
    "Verif.Num.C33_leastSquare3x1"
   ],
   "note": "Exact arithmetic over an arbitrary commutative ring / field; against Mathlib determinants, inverses and least-squares minimisers. Condition numbers and rounding not modelled."
  },
  {
   "property": "C54",
   "status": "proved",
   "theorems": [
    "Verif.Num.C54_s1v1",
    "Verif.Num.C54_s1v1_success",
    "Verif.Num.C54_s2v2",
    "Verif.Num.C54_s2v2_success",
    "Verif.Num.C54_s3v3",
    "Verif.Num.C54_s3v3_success",
    "Verif.Num.C54_vertex_zero",
    "Verif.Num.C54_s1v2_least_squares",
    "Verif.Num.C54_s2v3",
    "Verif.Num.C54_s1v2_false_positive",
    "Verif.Num.C54_integer_s1v2",
    "Verif.Num.C54_clamp",
    "Verif.Num.C54_clampBarycentric",
    "Verif.Num.C54_robust_then_solve2",
    "Verif.Num.C54_robust_then_solve3"
   ],
   "note": "Exact arithmetic. The over-determined s1v2 is least squares; success without a zero is a finding (C54_s1v2_false_positive). C54_robust_then_solve2/3 connect the robust integer test with the solver."
  },
  {
   "property": "C34",
   "status": "partial",
   "theorems": [
    "Verif.Rational.C34_gcd",
    "Verif.Rational.C34_addAssign_partial",
    "Verif.Rational.C34_subAssign_partial",
    "Verif.Rational.C34_mulAssign_partial",
    "Verif.Rational.C34_divAssign_partial",
    "Verif.Rational.C34_int_ops",
    "Verif.Rational.C34_lt_partial",
    "Verif.Rational.C34_ltInt",
    "Verif.Rational.C34_eq_partial",
    "Verif.Rational.C34_eqInt_gtInt",
    "Verif.Rational.C34_normalize",
    "Verif.Rational.C34_plus_wrong",
    "Verif.Rational.C34_minus_wrong",
    "Verif.Rational.C34_negative_denominator",
    "Verif.Rational.C34_unreduced_eq"
   ],
   "note": "The full statement is false: free operator+/- return b+b/b-b, and ==/< need reduced/positive-denominator operands (witnesses proved). Proved: +=, -=, *=, /=, integer operations for all non-zero denominators; < for positive denominators; == for reduced operands. Unbounded integers."
  },
  {
   "property": "C35",
   "status": "partial",
   "theorems": [
    "Verif.Interval.C35_empty",
    "Verif.Interval.C35_contains_partial",
    "Verif.Interval.C35_overlaps_false",
    "Verif.Interval.C35_overlaps_true",
    "Verif.Interval.C35_intersect",
    "Verif.Interval.C35_history_partial",
    "Verif.Interval.C35_history_overlaps_partial",
    "Verif.Interval.C35_join_wrong",
    "Verif.Interval.C35_insert_dropped",
    "Verif.Interval.C35_contains_empty_wrong"
   ],
   "note": "The full statement is false for open ends (join drops open flags), for intervals with the same lower end, and for empty intervals (witnesses proved). Proved for any history of closed-interval operations."
  },
  {
   "property": "C36",
   "status": "partial",
   "theorems": [
    "Verif.Poly.C36_evaluate",
    "Verif.Poly.C36_addition",
    "Verif.Poly.C36_subtraction_partial",
    "Verif.Poly.C36_subtraction_wrong_sign",
    "Verif.Poly.C36_in_place",
    "Verif.Poly.C36_copy",
    "Verif.Poly.C36_scalar",
    "Verif.Poly.C36_derivative",
    "Verif.Poly.C36_evaluate_derivative",
    "Verif.Poly.C36_multiplication",
    "Verif.Poly.C36_evaluate_ops",
    "Verif.Poly.C36_equals_to"
   ],
   "note": "Against Mathlib's Polynomial, over any commutative ring, all degrees. Subtraction with m<n returns the negated result (proved), hence partial; everything else is proved in full. Rounding and overlapping buffers not modelled."
  },
  {
   "property": "C37",
   "status": "partial",
   "theorems": [
    "Verif.CPType.C37_eigenvalues_sym2",
    "Verif.CPType.C37_type2_symmetric",
    "Verif.CPType.C37_eigenvalues2",
    "Verif.CPType.C37_type2_general",
    "Verif.CPType.C37_eigenvalues_sym3",
    "Verif.CPType.C37_type3_symmetric",
    "Verif.CPType.C37_make_symmetric",
    "Verif.CPType.C37_type3_general_unknown"
   ],
   "note": "2-D (symmetric and general) and 3-D symmetric classification proved exactly over the reals (definiteness of the form / complex eigenvalues). The 3-D general case is not implemented in the code (always UNKNOWN, proved), hence partial. Rounding not modelled."
  },
  {
   "property": "C53",
   "status": "partial",
   "theorems": [
    "Verif.FixedPoint.C53_conversion",
    "Verif.FixedPoint.C53_exact",
    "Verif.FixedPoint.C53_mul",
    "Verif.FixedPoint.C53_compare",
    "Verif.FixedPoint.C53_div_wrong"
   ],
   "note": "Everything except division is proved; division is wrong in the code (x/x = 0, proved). Overflow not modelled."
  },
  {
   "property": "C67",
   "status": "partial",
   "theorems": [
    "Verif.Roots.C67_quadratic_multiplicity",
    "Verif.Roots.C67_cubic_multiplicity",
    "Verif.Roots.C67_quadratic_partial",
    "Verif.Roots.C67_quadratic_out_of_bounds",
    "Verif.Roots.C67_cubic_partial",
    "Verif.Roots.C67_cubic_uninitialised"
   ],
   "note": "The _multiplicity versions are proved in full against Mathlib's rootMultiplicity. The array versions are proved except for zero constant coefficient with non-zero leading quadratic coefficient, where the code writes x[n+1] (out of bounds / leaves a root uninitialised, proved). Exact real arithmetic."
  },
  {
   "property": "C38",
   "status": "proved",
   "theorems": [
    "Verif.ND.C38_reachable",
    "Verif.ND.C38_index_bijective",
    "Verif.ND.C38_read_write",
    "Verif.ND.C38_reshape",
    "Verif.ND.C38_fill_vector_breaks_shape"
   ],
   "note": "Every array built by reshape is shaped and its index map is a bijection onto the storage; fill(vector) with a wrong length is the one call that breaks the invariant (proved)."
  },
  {
   "property": "C39",
   "status": "partial",
   "theorems": [
    "Verif.ND.C39_transpose",
    "Verif.ND.C39_involution",
    "Verif.ND.C39_transpose_drops_flags",
    "Verif.ND.C39_transpose_5d"
   ],
   "note": "Proved for 2-D to 4-D arrays; get_transpose drops the multicomponent/time flags and is fatal for five or more dimensions (both proved)."
  },
  {
   "property": "C40",
   "status": "partial",
   "theorems": [
    "Verif.ND.C40_slice",
    "Verif.ND.C40_stack",
    "Verif.ND.C40_concat",
    "Verif.ND.C40_slice_time",
    "Verif.ND.C40_stack_slice_time",
    "Verif.ND.C40_slice_time_1d",
    "Verif.ND.C40_subarray_multicomponent"
   ],
   "note": "slice_time is fatal on 1-D arrays and subarray of a multicomponent array is out of bounds (proved)."
  },
  {
   "property": "C41",
   "status": "partial",
   "theorems": [
    "Verif.Ser.C41_ndarray",
    "Verif.Ser.C41_feature_point",
    "Verif.Ser.C41_mesh_element",
    "Verif.Ser.C41_feature_surface",
    "Verif.Ser.C41_feature_curve_partial",
    "Verif.Ser.C41_curve_loses_loop",
    "Verif.Ser.C41_vector",
    "Verif.Ser.C41_map",
    "Verif.Ser.C41_set",
    "Verif.Ser.C41_two_objects",
    "Verif.Ser.C41_map_load_merges",
    "Verif.Ser.C41_point_map"
   ],
   "note": "Round trip proved for every serialised type; the curve serializer loses id, loop and vmmin/vmmax (proved), so curves round-trip only up to these fields."
  },
  {
   "property": "C42",
   "status": "partial",
   "theorems": [
    "Verif.ND.C42_min_max_partial",
    "Verif.ND.C42_min_max_any",
    "Verif.ND.C42_max_of_negative_floats",
    "Verif.ND.C42_clamp",
    "Verif.ND.C42_maxabs",
    "Verif.ND.C42_resolution"
   ],
   "note": "min_max is correct when the element type's numeric_limits::min() is not above the maximum; for floating-point arrays of negative values the maximum is wrong (proved)."
  },
  {
   "property": "C43",
   "status": "proved",
   "theorems": [
    "Verif.ND.C43_out_of_bound",
    "Verif.ND.C43_value",
    "Verif.ND.C43_grid_position",
    "Verif.ND.C43_between",
    "Verif.ND.C43_affine",
    "Verif.ND.C43_last_position"
   ],
   "note": "Exact rational arithmetic."
  },
  {
   "property": "C68",
   "status": "proved",
   "theorems": [
    "Verif.ND.C68_add",
    "Verif.ND.C68_add_assign",
    "Verif.ND.C68_from_array",
    "Verif.ND.C68_add_shape_mismatch"
   ],
   "note": "Shape mismatch reads out of bounds (proved)."
  },
  {
   "property": "C45",
   "status": "proved",
   "theorems": [
    "Verif.Comm.C45_gather_fold",
    "Verif.Comm.C45_allgather_fold",
    "Verif.Comm.C45_gather",
    "Verif.Comm.C45_allgather",
    "Verif.Comm.C45_gather_set"
   ],
   "note": "Byte-level model of serialization, displacements and buffers; every MPI delivery order; total size within int."
  },
  {
   "property": "C46",
   "status": "proved",
   "theorems": [
    "Verif.Comm.C46_redistribute",
    "Verif.Comm.C46_exactly_one"
   ],
   "note": "Any hash function, number of ranks and delivery order."
  },
  {
   "property": "C55",
   "status": "partial",
   "theorems": [
    "Verif.Comm.C55_all2all_partial",
    "Verif.Comm.C55_all2all_loses_data"
   ],
   "note": "True for one or two ranks; with three ranks data is lost because every receive displacement is zero (proved)."
  },
  {
   "property": "C44",
   "status": "partial",
   "theorems": [
    "Verif.Stream.C44_streaming_partial",
    "Verif.Stream.C44_online",
    "Verif.Stream.C44_short_series",
    "Verif.Stream.C44_finish_empty"
   ],
   "note": "Proved for series at least as long as the kernel; false for shorter ones and undefined for empty ones (proved). The reported timestep depends on the compiler's argument evaluation order."
  },
  {
   "property": "C49",
   "status": "proved",
   "theorems": [
    "Verif.KD.C49_nearest",
    "Verif.KD.C49_naive",
    "Verif.KD.C49_agree",
    "Verif.KD.C49_max_level",
    "Verif.KD.C49_empty"
   ],
   "note": "Exact arithmetic; every implementation of std::nth_element. With a binding max_level the nearest point is not found, and building on no points is out of bounds (both proved)."
  },
  {
   "property": "C50",
   "status": "proved",
   "theorems": [
    "Verif.CT.C50_symmetric",
    "Verif.CT.C50_reduce",
    "Verif.CT.C50_branching",
    "Verif.CT.C50_isolated"
   ],
   "note": "reduce_node on an isolated node invents an arc -1 -> -1, and on a node whose arcs were reduced away it is undefined (proved); reduce() never gets there."
  },
  {
   "property": "C69",
   "status": "proved",
   "theorems": [
    "Verif.UM.C69_build_defined",
    "Verif.UM.C69_get_triangle",
    "Verif.UM.C69_find_triangle",
    "Verif.UM.C69_chirality",
    "Verif.UM.C69_vertex_triangles"
   ],
   "note": "Every iteration order of the hash containers; edge-manifold meshes."
  },
  {
   "property": "C70",
   "status": "partial",
   "theorems": [
    "Verif.UM.C70_edges",
    "Verif.UM.C70_find_edge",
    "Verif.UM.C70_sides",
    "Verif.UM.C70_side_of",
    "Verif.UM.C70_duality",
    "Verif.UM.C70_vertex_neighbours",
    "Verif.UM.C70_adjacency_partial",
    "Verif.UM.C70_adjacency_incomplete",
    "Verif.UM.C70_nonmanifold_corrupts",
    "Verif.UM.C70_duplicates_undefined"
   ],
   "note": "All proved except the METIS adjacency, which is sound but incomplete because its loop stops at n(2) instead of n(1) (proved). With three triangles on an edge the tables are corrupted (proved)."
  },
  {
   "property": "C71",
   "status": "partial",
   "theorems": [
    "Verif.UM.C71_partition_partial",
    "Verif.UM.C71_exactly_one_rank",
    "Verif.UM.C71_vertices_wrong",
    "Verif.UM.C71_gid2lid_wrong"
   ],
   "note": "Triangles and edges proved; local vertices are filled from the edge set and the gid2lid maps are filled the wrong way round (both proved)."
  },
  {
   "property": "C51",
   "status": "partial",
   "theorems": [
    "Verif.XM.C51_get_simplex",
    "Verif.XM.C51_every_simplex",
    "Verif.XM.C51_find_simplex",
    "Verif.XM.C51_find_get_partial",
    "Verif.XM.C51_enumeration",
    "Verif.XM.C51_ordinal",
    "Verif.XM.C51_negative_vertex",
    "Verif.XM.C51_negative_multiple",
    "Verif.XM.C51_find_negative",
    "Verif.XM.C51_find_order"
   ],
   "note": "Ids are in bijection with the simplices of the product triangulation; find_simplex inverts get_simplex at non-negative times. False at negative times (mod of a negative multiple is n; flat_vertex_time divides unsigned) and find_simplex depends on vertex order and accepts pairs that are no edges (all proved)."
  },
  {
   "property": "C52",
   "status": "partial",
   "theorems": [
    "Verif.XM.C52_sides",
    "Verif.XM.C52_side_of",
    "Verif.XM.C52_duality_partial",
    "Verif.XM.C52_neighbours_partial",
    "Verif.XM.C52_negative_sides",
    "Verif.XM.C52_negative_side_of",
    "Verif.XM.C52_neighbours_incomplete"
   ],
   "note": "Proved for faces at non-negative times and all tetrahedra whose id is not a negative multiple of n(3); false for the others (proved). get_vertex_edge_vertex misses the diagonal edges (proved)."
  },
  {
   "property": "C47",
   "status": "proved",
   "theorems": [
    "Verif.Trk.C47_exactly_once",
    "Verif.Trk.C47_driver",
    "Verif.Trk.C47_one_process",
    "Verif.Trk.C47_processes_together",
    "Verif.Trk.C47_schedule_independent",
    "Verif.Trk.C47_early_advance_skips_interval",
    "Verif.Trk.C47_no_snapshot_undefined"
   ],
   "note": "Any check_simplex, number of threads and processes. An advance with a single snapshot skips that interval for ever, and without any snapshot it is undefined (both proved)."
  },
  {
   "property": "C48",
   "status": "proved",
   "theorems": [
    "Verif.Trk.C48_online_step",
    "Verif.Trk.C48_online_history",
    "Verif.Trk.C48_online_nothing_lost",
    "Verif.Trk.C48_streaming_tracker",
    "Verif.Trk.C48_joining_trajectories_stay_split",
    "Verif.Trk.C48_streaming_loses_last_timestep",
    "Verif.Trk.C48_update_twice_duplicates"
   ],
   "note": "Online tracing loses and duplicates nothing it is given; joining trajectories stay split; the driver never hands it the last timestep; calling update_timestep twice duplicates points (all proved)."
  },
  {
   "property": "C72",
   "status": "proved",
   "theorems": [
    "Verif.Trk.C72_follows",
    "Verif.Trk.C72_tracker_2d",
    "Verif.Trk.C72_tracker_3d",
    "Verif.Trk.C72_tracker_2d_dyadic",
    "Verif.Trk.C72_tracker_3d_dyadic",
    "Verif.Trk.C72_factor_change_breaks_curves",
    "Verif.Trk.C72_nan_breaks_curves"
   ],
   "note": "One process, finite values, one quantisation factor throughout (always so with GMP rationals). Without GMP the factor is recomputed for each timestep and a curve can end inside the box; so can it with a NaN (both proved)."
  },
  {
   "property": "C73",
   "status": "partial",
   "theorems": [
    "Verif.Quad.C73_build",
    "Verif.Quad.C73_locate_sound",
    "Verif.Quad.C73_locate_complete_partial",
    "Verif.Quad.C73_locate_recursive",
    "Verif.Quad.C73_locate_interior",
    "Verif.Quad.C73_same_centroid_diverges",
    "Verif.Quad.C73_upper_boundary_missed"
   ],
   "note": "Every claim except completeness is proved in full.  Completeness is proved for the points below the upper and left of the right end of some containing triangle (interior points among them); it is false for points on the upper and right boundary, because the boxes are half-open: C73_upper_boundary_missed.  Exact arithmetic."
  },
  {
   "property": "C74",
   "status": "proved",
   "theorems": [
    "Verif.RM.C74_sides",
    "Verif.RM.C74_side_of",
    "Verif.RM.C74_counts",
    "Verif.RM.C74_iteration"
   ],
   "note": ""
  },
  {
   "property": "C75",
   "status": "proved",
   "theorems": [
    "Verif.Ode.C75_linear",
    "Verif.Ode.C75_constant",
    "Verif.Ode.C75_quadrature",
    "Verif.Ode.C75_first_failure",
    "Verif.Ode.C75_success",
    "Verif.Ode.C75_late_failure_moves_point"
   ],
   "note": "Exact arithmetic over any field of characteristic 0.  A failure after the first evaluation leaves the point at an intermediate position (C75_late_failure_moves_point)."
  },
  {
   "property": "C76",
   "status": "proved",
   "theorems": [
    "Verif.Ode.C76_rodrigues",
    "Verif.Ode.C76_keeps_norm",
    "Verif.Ode.C76_fixes_axis",
    "Verif.Ode.C76_zero_axis",
    "Verif.Ode.C76_angular_step",
    "Verif.Ode.C76_zero_velocity",
    "Verif.Ode.C76_vertical_step",
    "Verif.Ode.C76_vertical_step_exact",
    "Verif.Ode.C76_spherical_step",
    "Verif.Ode.C76_spherical_rk4"
   ],
   "note": "Exact real arithmetic.  Zero velocity gives NaN: C76_zero_velocity."
  },
  {
   "property": "C77",
   "status": "partial",
   "theorems": [
    "Verif.Grad.C77_gradient3D",
    "Verif.Grad.C77_gradient3D_exact_partial",
    "Verif.Grad.C77_gradient3Dt",
    "Verif.Grad.C77_gradient2Dt",
    "Verif.Grad.C77_gradient2D",
    "Verif.Grad.C77_gradient2D_affine",
    "Verif.Grad.C77_jacobian2Dt",
    "Verif.Grad.C77_jacobian3D",
    "Verif.Grad.C77_vorticity3D",
    "Verif.Grad.C77_cross_product3D",
    "Verif.Grad.C77_Jv",
    "Verif.Grad.C77_jacobian2D_symmetric",
    "Verif.Grad.C77_jacobian2D_constant",
    "Verif.Grad.C77_jacobian2D_off_diagonal",
    "Verif.Grad.C77_jacobian3Dt_out_of_bounds"
   ],
   "note": "Proved for gradient3D, gradient3Dt, gradient2Dt, jacobian2Dt, jacobian3D and the products.  False for the others, each with a proof: gradient2D is twice the derivative inside and once on the boundary, jacobian2D is wrong even for constant fields (missing parenthesis) and leaves its off-diagonal entries 0, vorticity3D is twice the curl, jacobian3Dt reads out of bounds."
  },
  {
   "property": "C79",
   "status": "partial",
   "theorems": [
    "Verif.Conv.C79_conv2D_partial",
    "Verif.Conv.C79_conv3D_partial",
    "Verif.Conv.C79_constant",
    "Verif.Conv.C79_too_large",
    "Verif.Conv.C79_gaussian_kernel",
    "Verif.Conv.C79_gaussian_kernel2D"
   ],
   "note": "Everything proved except that constants are kept: the code divides by the number of kernel entries as well (C79_constant).  A kernel larger than the padded data makes the output size wrap (C79_too_large).  Exact arithmetic."
  },
  {
   "property": "C78",
   "status": "partial",
   "theorems": [
    "Verif.Num.C78_gradient_2dsimplex2_partial",
    "Verif.Num.C78_affine_interpolant",
    "Verif.Num.C78_jacobian_2dsimplex2",
    "Verif.Num.C78_jacobian_3dsimplex",
    "Verif.Num.C78_gradient_3dsimplex2_wrong"
   ],
   "note": "Proved for all but gradient_3dsimplex2, which always returns third component 0 or solves a singular system (typo X[2][2]-X[2][2], proved).  gradient_3dsimplex3 does not compile.  Exact arithmetic."
  },
  {
   "property": "C80",
   "status": "partial",
   "theorems": [
    "Verif.Num.C80_one_norm2_partial",
    "Verif.Num.C80_one_norm3",
    "Verif.Num.C80_inf_norm2",
    "Verif.Num.C80_cond2",
    "Verif.Num.C80_cond3",
    "Verif.Num.C80_frobenius",
    "Verif.Num.C80_decomposition"
   ],
   "note": "All proved except the Frobenius norms, which lack the square root (C80_frobenius).  matrix_2norm_real2x2 does not compile.  Exact arithmetic."
  },
  {
   "property": "C81",
   "status": "partial",
   "theorems": [
    "Verif.Roots.C81_quadratic",
    "Verif.Roots.C81_cubic",
    "Verif.Roots.C81_quartic_partial",
    "Verif.Roots.C81_quartic_nan",
    "Verif.Roots.C81_quartic_unit_roots_nan"
   ],
   "note": "quartic_solve: proved whenever no division by zero occurs; for some quartics with simple roots, such as x^4-1, it divides by zero and returns NaN (proved).  Exact complex arithmetic, principal powers."
  },
  {
   "property": "C82",
   "status": "partial",
   "theorems": [
    "Verif.Num.C82_normalize",
    "Verif.Num.C82_eigenvectors2_partial",
    "Verif.Num.C82_eigenvectors3_partial"
   ],
   "note": "Proved for every eigenvalue without an eigenvector of coordinate sum 0; for an eigenvalue with such an eigenvector the result is NaN (second half of both theorems).  Exact arithmetic."
  },
  {
   "property": "C83",
   "status": "proved",
   "theorems": [
    "Verif.Ctr.C83_contour_edges",
    "Verif.Ctr.C83_schedule_independent"
   ],
   "note": "One process, times from 0; array values are exact rationals, the 2^20 quantisation and the simulation-of-simplicity predicate of the code are modelled.  The 3-D tracker reads its gradient at global coordinates: the array must cover the domain also without subtracting its start."
  },
  {
   "property": "C84",
   "status": "partial",
   "theorems": [
    "Verif.Ctr.C84_contour_point_partial",
    "Verif.Ctr.C84_point_leaves_edge"
   ],
   "note": "Everything is proved except that the point lies between the ends of its edge when both values exceed the threshold, one of them by less than 2^-21: there the code extrapolates and the point can leave the edge (C84_point_leaves_edge)."
  },
  {
   "property": "C85",
   "status": "proved",
   "theorems": [
    "Verif.Ctr.C85_surface",
    "Verif.Ctr.C85_watertight",
    "Verif.Ctr.C85_order"
   ],
   "note": "Stated for pairs of points: also covers the diagonals inside a cell (in two triangles)."
  },
  {
   "property": "C86",
   "status": "partial",
   "theorems": [
    "Verif.Ctr.C86_isovolume_partial",
    "Verif.Ctr.C86_triangular_patches",
    "Verif.Ctr.C86_quadrilaterals_do_not_fit"
   ],
   "note": "Array safety, points, decomposition of every cell and fitting of triangular patches are proved.  Quadrilateral patches shared by two cells may be cut along different diagonals (C86_quadrilaterals_do_not_fit), so the whole is not watertight."
  },
  {
   "property": "C87",
   "status": "partial",
   "theorems": [
    "Verif.Surf.C87_line",
    "Verif.Surf.C87_volume",
    "Verif.Surf.C87_surface_partial",
    "Verif.Surf.C87_pentagon_fifth_point"
   ],
   "note": "Proved for lines, volumes and surfaces; for surfaces without pentagons in full, with pentagons for the connection through their first four points: the fifth is not joined (C87_pentagon_fifth_point)."
  },
  {
   "property": "C88",
   "status": "partial",
   "theorems": [
    "Verif.Surf.C88_slice",
    "Verif.Surf.C88_slice_time_partial",
    "Verif.Surf.C88_slice_time_misses_triangle"
   ],
   "note": "slice is proved in full.  slice_time ignores tetrahedra with a point of another timestep (C88_slice_time_misses_triangle), the theorem says exactly which triangles it reports."
  },
  {
   "property": "C89",
   "status": "proved",
   "theorems": [
    "Verif.Surf.C89_line",
    "Verif.Surf.C89_slice_time",
    "Verif.Surf.C89_two_point_line_is_a_loop"
   ],
   "note": "The loop flag is proved as the code computes it; a consequence is that an open curve of two points is flagged as loop (C89_two_point_line_is_a_loop)."
  },
  {
   "property": "C90",
   "status": "partial",
   "theorems": [
    "Verif.Surf.C90_discard_partial",
    "Verif.Surf.C90_discard_apart",
    "Verif.Surf.C90_keeps_flagged",
    "Verif.Surf.C90_stale_quads"
   ],
   "note": "Termination, points kept and triangles are proved for all surfaces; that no selected point is left is proved if no two selected points share a triangle and false otherwise (C90_keeps_flagged).  Quadrilaterals and pentagons are not renumbered (C90_stale_quads).  Distances are exact rationals."
  },
  {
   "property": "C91",
   "status": "partial",
   "theorems": [
    "Verif.Surf.C91_reorient_partial",
    "Verif.Surf.C91_breaks_orientation",
    "Verif.Surf.C91_leaves_disagreement",
    "Verif.Surf.C91_no_triangles"
   ],
   "note": "Termination and 'only flips' are proved for surfaces with a triangle; agreement is false: the code flips triangles that agree.  Without triangles it reads out of bounds."
  },
  {
   "property": "C92",
   "status": "partial",
   "theorems": [
    "Verif.UTrk.C92_exactly_once",
    "Verif.UTrk.C92_driver",
    "Verif.UTrk.C92_streaming",
    "Verif.UTrk.C92_schedule_independent",
    "Verif.UTrk.C92_detected_iff",
    "Verif.UTrk.C92_punctured",
    "Verif.UTrk.C92_punctured_partial",
    "Verif.UTrk.C94_degenerate_dropped"
   ],
   "note": "Everything is proved for all meshes, series and schedules except that a punctured triangle yields a point: proved when quantisation is exact; in general a triangle whose unquantised vectors are degenerate is dropped (C94_degenerate_dropped)."
  },
  {
   "property": "C93",
   "status": "proved",
   "theorems": [
    "Verif.UTrk.C93_weights",
    "Verif.UTrk.C93_position",
    "Verif.UTrk.C93_exact"
   ],
   "note": "Without exact quantisation the solver's weights are clamped and the interpolated vector need not be zero."
  },
  {
   "property": "C94",
   "status": "partial",
   "theorems": [
    "Verif.UTrk.C94_follows_partial",
    "Verif.UTrk.C94_follows_dyadic",
    "Verif.UTrk.C94_degenerate_dropped"
   ],
   "note": "Proved in full for values that are multiples of 1/256; for others assuming one scaling factor throughout and no punctured triangle whose unquantised vectors are degenerate (otherwise false, C94_degenerate_dropped).  No filter, one process, offline tracing."
  },
  {
   "property": "C95",
   "status": "proved",
   "theorems": [
    "Verif.SoS.C95_hit1",
    "Verif.SoS.C95_hit2",
    "Verif.SoS.C95_hit3",
    "Verif.SoS.C95_negative_index",
    "Verif.Num.C95_solve2",
    "Verif.Num.C95_solve3"
   ],
   "note": "Follows from a dimension-free lemma on the perturbation.  The hypothesis on the indices is needed (C95_negative_index)."
  },
  {
   "property": "C96",
   "status": "proved",
   "theorems": [
    "Verif.CLT.C96_detects",
    "Verif.CLT.C96_point",
    "Verif.CLT.C96_zero_dyadic"
   ],
   "note": "One process, CPU, exact numbers; the model is generic in what is read at a vertex, so the derived trackers (Sujudi-Haimes, Levy-Degani-Seginer, ridge/valley) are instances."
  },
  {
   "property": "C97",
   "status": "partial",
   "theorems": [
    "Verif.CLT.C97_ring",
    "Verif.CLT.C97_surface_partial",
    "Verif.CLT.C97_quad_closed"
   ],
   "note": "Everything is proved except that the triangles fill the polygon: false for four corners (all four triangles, a closed surface, C97_quad_closed) and five (nine of the ten triangles)."
  },
  {
   "property": "C98",
   "status": "proved",
   "theorems": [
    "Verif.CLT.C98_lines"
   ],
   "note": "One process.  The curves are lists of triangles in order; the loop flag is not part of the statement (the code never sets it)."
  },
  {
   "property": "C99",
   "status": "proved",
   "theorems": [
    "Verif.Swirl.C99_sujudi_haimes",
    "Verif.Swirl.C99_ridge_valley"
   ],
   "note": "the whole path from the pushed array to the recorded points, on top of the operators of C77 and the tracker of C96"
  },
  {
   "property": "C100",
   "status": "proved",
   "theorems": [
    "Verif.Swirl.C100_swirl",
    "Verif.Swirl.disc_eigenvalue"
   ],
   "note": "eigenvalues over the complex numbers; the code reads the Jacobian transposed, which the characteristic polynomial does not see"
  },
  {
   "property": "C101",
   "status": "partial",
   "theorems": [
    "Verif.Swirl.C101_levy_degani_seginer_partial",
    "Verif.Swirl.C101_vortmag_zero"
   ],
   "note": "the code's vortmag uses two of the three components; witness: a vortex along z gets vortmag 0"
  },
  {
   "property": "C102",
   "status": "partial",
   "theorems": [
    "Verif.Swirl.C102_parallel_partial",
    "Verif.Swirl.C102_not_parallel",
    "Verif.Swirl.C102_planar_none"
   ],
   "note": "only the first two components of the cross product are tested; witnesses in both directions"
  },
  {
   "property": "C103",
   "status": "partial",
   "theorems": [
    "Verif.Swirl.C103_any_domain",
    "Verif.Swirl.C103_cli_spurious"
   ],
   "note": "the loop is safe and its result is given exactly on every domain; but on the outer layers the derived arrays are left at zero, and on the domain of the command line program a spurious point is proved to be found"
  },
  {
   "property": "C104",
   "status": "proved",
   "theorems": [
    "Verif.Tdgl.C104_contour",
    "Verif.Tdgl.C104_winding"
   ],
   "note": "over the real numbers with the real pi (no rounding)"
  },
  {
   "property": "C105",
   "status": "partial",
   "theorems": [
    "Verif.Tdgl.C105_circulation",
    "Verif.Tdgl.C105_flux_partial",
    "Verif.Tdgl.C105_kex",
    "Verif.Tdgl.C105_flux_lost",
    "Verif.Tdgl.C105_flux_lost_first"
   ],
   "note": "the exact circulation is given for every field; it is the flux only if B[1] = 0, or B[1] > 0 and B[0] = 0; witnesses for B[1] < 0 and for B[0] with B[1] > 0"
  },
  {
   "property": "C106",
   "status": "proved",
   "theorems": [
    "Verif.Tdgl.C106_branches",
    "Verif.Tdgl.C106_gauge",
    "Verif.Tdgl.C106_place"
   ],
   "note": ""
  },
  {
   "property": "C107",
   "status": "proved",
   "theorems": [
    "Verif.Tdgl.C107_detects"
   ],
   "note": "on top of the generic scan (C91 machinery); one process, CPU"
  },
  {
   "property": "C108",
   "status": "partial",
   "theorems": [
    "Verif.Tdgl.C108_conserved",
    "Verif.Tdgl.C108_even",
    "Verif.Tdgl.C108_two",
    "Verif.Tdgl.C108_tie",
    "Verif.Tdgl.C108_four"
   ],
   "note": "holds if no phase difference is exactly half a turn; witness for ties. The even count needs circulations below half a turn, 0 or 2 needs no circulation; witness with four crossed faces in a field"
  },
  {
   "property": "C109",
   "status": "partial",
   "theorems": [
    "Verif.Tdgl.C109_located_partial",
    "Verif.Tdgl.C109_found",
    "Verif.Tdgl.C109_outside"
   ],
   "note": "both directions without circulation and ties; with a field the point can lie outside its triangle (witness)"
  },
  {
   "property": "C110",
   "status": "partial",
   "theorems": [
    "Verif.Tdgl.C110_ring",
    "Verif.Tdgl.C110_surface_partial",
    "Verif.Tdgl.C110_free"
   ],
   "note": "for series without circulation and ties (C110_free: met by series without a field); with a field a 4-simplex may have more crossed triangles"
  },
  {
   "property": "C111",
   "status": "proved",
   "theorems": [
    "Verif.PT.C111_series",
    "Verif.PT.C111_single",
    "Verif.PT.C111_schedule",
    "Verif.PT.C111_checkpoint_ignored"
   ],
   "note": "one process; the set_nsteps_per_checkpoint argument is ignored (always 16)"
  },
  {
   "property": "C112",
   "status": "proved",
   "theorems": [
    "Verif.PT.C112_interval",
    "Verif.PT.C112_series",
    "Verif.PT.C112_times_sorted"
   ],
   "note": "exact arithmetic"
  },
  {
   "property": "C113",
   "status": "partial",
   "theorems": [
    "Verif.PT.C113_complete_or_outside_partial",
    "Verif.PT.C113_stuck_outside",
    "Verif.PT.C113_recorded_outside"
   ],
   "note": "completeness and staying put are proved; the recorded place is an unfinished RK stage outside the grid, not the boundary (witness)"
  },
  {
   "property": "C114",
   "status": "proved",
   "theorems": [
    "Verif.PT.C114_interval",
    "Verif.PT.C114_series"
   ],
   "note": "exact arithmetic; room = a box around the seed inside the grid"
  },
  {
   "property": "C115",
   "status": "partial",
   "theorems": [
    "Verif.PT.C112_series",
    "Verif.PT.C115_small_delta_t",
    "Verif.PT.C115_large_delta_t",
    "Verif.PT.C115_seed_between_steps"
   ],
   "note": "holds for delta_t = 1 and seeds at time steps (C112_series); fails for every 0 < delta_t < 1 (all later intervals frozen) and for witnesses with delta_t = 2 and a seed between time steps"
  },
  {
   "property": "C116",
   "status": "proved",
   "theorems": [
    "Verif.PT.C116_affine"
   ],
   "note": "exact arithmetic"
  },
  {
   "property": "C117",
   "status": "proved",
   "theorems": [
    "Verif.PT.C117_seeds",
    "Verif.PT.C117_seeds_inside",
    "Verif.PT.C117_given"
   ],
   "note": "up to 3 dimensions"
  },
  {
   "property": "C118",
   "status": "partial",
   "theorems": [
    "Verif.PT.C114_interval",
    "Verif.PT.C118_velocity_lags"
   ],
   "note": "the recorded velocity is indeterminate at the first point of an interval and lags one step behind elsewhere (C114_interval gives it exactly for uniform velocities; witness)"
  },
  {
   "property": "C119",
   "status": "partial",
   "theorems": [
    "Verif.Ineq.C119_linear_partial",
    "Verif.Ineq.C119_tiny_slope"
   ],
   "note": "exact unless 0 < |a| < machine epsilon (there the result is wrong for every b >= 0)"
  },
  {
   "property": "C120",
   "status": "partial",
   "theorems": [
    "Verif.Ineq.C120_cubic_partial",
    "Verif.Ineq.C120_cubic_sound",
    "Verif.Ineq.C120_isolated_zero",
    "Verif.Ineq.C120_undefined"
   ],
   "note": "the result is the closure of {P > 0}; isolated zeros are missed and two families of polynomials read an uninitialised root"
  },
  {
   "property": "C121",
   "status": "proved",
   "theorems": [
    "Verif.Ineq.C121_evaluate_rational",
    "Verif.Ineq.C121_evaluate_rational_infinity",
    "Verif.Ineq.C121_zero_denominator"
   ],
   "note": "exact arithmetic, epsilon tests exact on the tested values"
  },
  {
   "property": "C122",
   "status": "partial",
   "theorems": [
    "Verif.U3.C122_build_partial",
    "Verif.U3.C122_cells",
    "Verif.U3.C122_find",
    "Verif.U3.C122_order",
    "Verif.U3.C122_side_of",
    "Verif.U3.C122_side_of_vertex",
    "Verif.U3.C122_vertex_neighbours",
    "Verif.U3.C122_constructor_unusable",
    "Verif.U3.C122_sides_missing"
   ],
   "note": "all queries exact for a mesh initialised as from_vtu does; the public constructor never initialises the tables and sides() returns nothing (both proved)"
  },
  {
   "property": "C123",
   "status": "partial",
   "theorems": [
    "Verif.X3.C123_get_simplex_partial",
    "Verif.X3.C123_every_simplex_partial",
    "Verif.X3.C123_pentachoron_wrong",
    "Verif.X3.C123_pentachoron_unreachable",
    "Verif.X3.C123_enumeration_partial",
    "Verif.X3.C123_enumeration_pentachora",
    "Verif.X3.C123_interval_wrong",
    "Verif.X3.C123_ordinal",
    "Verif.X3.C123_vertex",
    "Verif.X3.C123_negative_multiple"
   ],
   "note": "exact but for pentachora of type 3 (a vertex twice), element_for_interval(4, t) (visits the next interval) and negative multiples of n(d), each proved wrong"
  },
  {
   "property": "C124",
   "status": "proved",
   "theorems": [
    "Verif.X3.C124_numbering",
    "Verif.X3.C124_duality",
    "Verif.X3.C124_two_cofaces"
   ],
   "note": "non-negative ids; with respect to the numbering of the true pentachora, which get_simplex gives except for type 3"
  },
  {
   "property": "C125",
   "status": "partial",
   "theorems": [
    "Verif.X3.C125_sides",
    "Verif.X3.C125_side_of_partial",
    "Verif.X3.C125_side_of_vertical",
    "Verif.X3.C125_side_of_incomplete"
   ],
   "note": "sides(3) exact; side_of(2) sound, exact for triangles with an edge along time, proved incomplete for others"
  },
  {
   "property": "C126",
   "status": "partial",
   "theorems": [
    "Verif.X3T.C126_detected_iff",
    "Verif.X3T.C126_exactly_once",
    "Verif.X3T.C126_driver",
    "Verif.X3T.C126_schedule_independent",
    "Verif.X3T.C126_punctured_partial",
    "Verif.X3T.C126_punctured",
    "Verif.X3T.C126_push_lost"
   ],
   "note": "exact detection for push_field_data_snapshot; VIOLATED for push_vector_field_snapshot, which does nothing, so the next update reads an empty deque; punctured tetrahedra with affinely dependent vectors are dropped (impossible when quantisation is exact)"
  },
  {
   "property": "C127",
   "status": "partial",
   "theorems": [
    "Verif.X3T.C127_weights_partial",
    "Verif.X3T.C127_position_partial",
    "Verif.X3T.C127_exact",
    "Verif.X3T.C127_weights_wrong",
    "Verif.X3T.C127_position_wrong"
   ],
   "note": "exact when quantisation is exact; otherwise the fallback writes mu[2] twice and leaves mu[3]: VIOLATED, witness with weights summing up to 4 and a point outside of its tetrahedron"
  },
  {
   "property": "C128",
   "status": "partial",
   "theorems": [
    "Verif.X3T.C128_follows_partial",
    "Verif.X3T.C128_follows_dyadic"
   ],
   "note": "needs that the scaling factor does not change during the series and that no punctured tetrahedron is degenerate; both hold for multiples of 1/256 (C128_follows_dyadic, no such hypothesis)"
  },
  {
   "property": "C129",
   "status": "proved",
   "theorems": [
    "Verif.X3T.C129_detected_iff",
    "Verif.X3T.C129_detects",
    "Verif.X3T.C129_point",
    "Verif.X3T.C129_zero_dyadic"
   ],
   "note": "exact arithmetic; type of the point not modelled"
  },
  {
   "property": "C130",
   "status": "proved",
   "theorems": [
    "Verif.X3T.C130_lines"
   ],
   "note": "single snapshot, which is all finalize handles; side_of(2, .) is incomplete in space-time (C125) but complete within one time step over the base mesh"
  },
  {
   "property": "C131",
   "status": "partial",
   "theorems": [
    "Verif.XGC.C131_get_simplex",
    "Verif.XGC.C131_every_simplex",
    "Verif.XGC.C131_unique",
    "Verif.XGC.C131_find_simplex_partial",
    "Verif.XGC.C131_poloidal",
    "Verif.XGC.C131_actual_poloidal",
    "Verif.XGC.C131_two_planes",
    "Verif.XGC.C131_one_plane",
    "Verif.XGC.C131_find_vertex"
   ],
   "note": "Violated as stated for vertices (find_simplex aborts) and with fewer than three planes (C131_two_planes, C131_one_plane); everything else is proved."
  },
  {
   "property": "C132",
   "status": "partial",
   "theorems": [
    "Verif.XGC.C132_duality",
    "Verif.XGC.C132_sides_partial",
    "Verif.XGC.C132_side_of_partial",
    "Verif.XGC.C132_neighbours_partial",
    "Verif.XGC.C132_neighbours_incomplete"
   ],
   "note": "Violated: get_vertex_edge_vertex misses the diagonal edges; inclusion of vertices characterises sides only with three planes or more."
  },
  {
   "property": "C133",
   "status": "partial",
   "theorems": [
    "Verif.XGC.C133_slice_points",
    "Verif.XGC.C133_slice_cells",
    "Verif.XGC.C133_coordinates_undefined",
    "Verif.XGC.C133_angle_zero"
   ],
   "note": "Violated: get_coords writes outside its buffer for every vertex and never sees the plane; the export is correct."
  },
  {
   "property": "C134",
   "status": "partial",
   "theorems": [
    "Verif.XGC.C134_actual_plane",
    "Verif.XGC.C134_virtual_plane",
    "Verif.XGC.C134_constant",
    "Verif.XGC.C134_between",
    "Verif.XGC.C134_array_pointwise",
    "Verif.XGC.C134_array",
    "Verif.XGC.C134_components",
    "Verif.XGC.C134_value",
    "Verif.XGC.C134_initialize",
    "Verif.XGC.C134_wedge_out_of_bounds"
   ],
   "note": "Proved for a full torus (iphi = 1), in exact arithmetic; violated for a wedge (iphi > 1). The field-line map and the point location are parameters."
  },
  {
   "property": "C135",
   "status": "proved",
   "theorems": [
    "Verif.XGC.C135_profile",
    "Verif.XGC.C135_profile_outside",
    "Verif.XGC.C135_turbulence",
    "Verif.XGC.C135_mean_zero",
    "Verif.XGC.C135_offset"
   ],
   "note": "Exact arithmetic."
  },
  {
   "property": "C136",
   "status": "partial",
   "theorems": [
    "Verif.XBlob.C136_labels",
    "Verif.XBlob.C136_same_label",
    "Verif.XBlob.C136_dark",
    "Verif.XBlob.C136_isolated",
    "Verif.XBlob.C136_late_snapshot",
    "Verif.XBlob.C136_step_without_snapshot",
    "Verif.XBlob.C136_overflow"
   ],
   "note": "Labels of vertices that belong to a chain; one thread (the union-find is treated concurrently in C06), iphi = 1, no smoothing kernel, ids within int, next snapshot pushed before the step. Violated otherwise: an isolated bright vertex gets -1, a late snapshot is not joined."
  },
  {
   "property": "C138",
   "status": "partial",
   "theorems": [
    "Verif.Cell.C138_reproduces",
    "Verif.Cell.C138_interpolates",
    "Verif.Cell.C138_gradient",
    "Verif.Cell.C138_hessian",
    "Verif.Cell.C138_hessian_wrong_type",
    "Verif.Cell.C138_barycentric",
    "Verif.Cell.C138_forms_agree",
    "Verif.Cell.C138_barycentric_gradient"
   ],
   "note": "All but the Hessian, whose diagonal is proved to be half of the second derivative (C138_hessian); a minimum can be classified as a saddle."
  },
  {
   "property": "C139",
   "status": "proved",
   "theorems": [
    "Verif.PV.C139_triangle_sound",
    "Verif.PV.C139_triangle_complete",
    "Verif.PV.C139_edge_sound",
    "Verif.PV.C139_edge_complete"
   ],
   "note": "Exact arithmetic; the cubic / quadratic root finder and the condition number are parameters, assumed sound resp. to return the root in question."
  },
  {
   "property": "C140",
   "status": "partial",
   "theorems": [
    "Verif.PV.C140_sound_partial",
    "Verif.PV.C140_false_solution",
    "Verif.PV.C140_missed_solution"
   ],
   "note": "Violated: the third component is not checked and solutions are missed unless two eliminants are parallel; the sound case is proved."
  },
  {
   "property": "C141",
   "status": "proved",
   "theorems": [
    "Verif.PV.C141_tetrahedron",
    "Verif.PV.C141_tetrahedron_degenerate",
    "Verif.PV.C141_triangle",
    "Verif.PV.C141_constant"
   ],
   "note": "Exact arithmetic."
  },
  {
   "property": "C142",
   "status": "partial",
   "theorems": [
    "Verif.PV.C142_bilinear_sound",
    "Verif.PV.C142_bilinear_complete_partial",
    "Verif.PV.C142_bilinear_missed",
    "Verif.PV.C142_eigen_sound",
    "Verif.PV.C142_eigen_complete",
    "Verif.PV.C142_trilinear_sound",
    "Verif.PV.C142_trilinear_complete_partial",
    "Verif.PV.C142_trilinear_missed",
    "Verif.PV.C142_trilinear_nan"
   ],
   "note": "Sound; complete outside degenerate pencils. Violated for affine fields (zeros missed) and NaN zeros reported for a zero-free field."
  },
  {
   "property": "C143",
   "status": "partial",
   "theorems": [
    "Verif.Cell.C143_degree",
    "Verif.Cell.C143_vertex"
   ],
   "note": "The number returned is minus the index (C143_degree); at a zero at a vertex it does not depend on the field."
  },
  {
   "property": "C144",
   "status": "proved",
   "theorems": [
    "Verif.Cell.C144_weights",
    "Verif.Cell.C144_corner",
    "Verif.Cell.C144_undefined"
   ],
   "note": "Exact arithmetic with an exact square root; at most ten vertices: the buffer overflows beyond (C144_undefined)."
  },
  {
   "property": "C137",
   "status": "partial",
   "theorems": [
    "Verif.Thresh.C137_tracks",
    "Verif.Thresh.C137_defined_iff",
    "Verif.Thresh.C137_other_dimensions"
   ],
   "note": "Full statement for frames with fewer than m n / 2 corners; C137_defined_iff: exactly then the labelling stays within its buffer. One node of the graph only for regions that overlap another (as in C60). No NaN."
  },
  {
   "property": "C145",
   "status": "partial",
   "theorems": [
    "Verif.Deg.C145_regular",
    "Verif.Deg.C145_unstructured",
    "Verif.Deg.C145_interval",
    "Verif.Deg.C145_inconsistent"
   ],
   "note": "Proved for each tracker, but the numbering is opposite: type 1 is index -1 on grids and +1 on counter-clockwise triangulations (C145_inconsistent); clockwise input flips it."
  },
  {
   "property": "C146",
   "status": "partial",
   "theorems": [
    "Verif.NdS.C146_calls",
    "Verif.NdS.C146_processing",
    "Verif.NdS.C146_temporal_partial",
    "Verif.NdS.C146_clamped",
    "Verif.NdS.C146_clamped_temporal_partial"
   ],
   "note": "Complete without temporal smoothing; with it, for odd kernels not longer than the series (C44 has the counterexamples)."
  },
  {
   "property": "C147",
   "status": "partial",
   "theorems": [
    "Verif.NdS.C147_order",
    "Verif.NdS.C147_no_deadlock",
    "Verif.NdS.C147_terminates",
    "Verif.NdS.C147_all_delivered_partial",
    "Verif.NdS.C147_nothing_delivered",
    "Verif.NdS.C147_zero_steps_hang",
    "Verif.NdS.C147_spurious",
    "Verif.NdS.C147_frame_lost"
   ],
   "note": "Order, at-most-once, absence of deadlock (at least one step) and termination proved for all schedules without spurious wake-ups. Full delivery fails: C147_nothing_delivered, C147_frame_lost; it holds when every frame is published while the consumer waits. With spurious wake-ups at-most-once fails too (C147_spurious)."
  },
  {
   "property": "C148",
   "status": "proved",
   "theorems": [
    "Verif.NdS.C148_locate",
    "Verif.NdS.C148_all_records",
    "Verif.NdS.C148_steps",
    "Verif.NdS.C148_read1",
    "Verif.NdS.C148_read2",
    "Verif.NdS.C148_read3",
    "Verif.NdS.C148_file_per_step",
    "Verif.NdS.C148_beyond",
    "Verif.NdS.C148_fixed_time_dimension"
   ],
   "note": "The NetCDF library is modelled by its documented hyperslab semantics. Blocks of more than three dimensions are not covered."
  },
  {
   "property": "C149",
   "status": "partial",
   "theorems": [
    "Verif.MPAS.C149_unique",
    "Verif.MPAS.C149_bisection",
    "Verif.MPAS.C149_agree_partial",
    "Verif.MPAS.C149_brute_force_overrun"
   ],
   "note": "The agreement of the linear search fails (out of bounds) at or below the last top: C149_brute_force_overrun."
  },
  {
   "property": "C150",
   "status": "proved",
   "theorems": [
    "Verif.MPAS.C150_spec",
    "Verif.MPAS.C150_radial",
    "Verif.MPAS.C150_convex",
    "Verif.MPAS.C150_vertices",
    "Verif.MPAS.C150_hull",
    "Verif.MPAS.C150_neighbours",
    "Verif.MPAS.C150_clockwise",
    "Verif.MPAS.C150_empty"
   ],
   "note": "Exact arithmetic."
  },
  {
   "property": "C151",
   "status": "proved",
   "theorems": [
    "Verif.MPAS.C151_sound",
    "Verif.MPAS.C151_complete",
    "Verif.MPAS.C151_voronoi",
    "Verif.MPAS.C151_hint_independent",
    "Verif.MPAS.C151_local",
    "Verif.MPAS.C151_bad_hint",
    "Verif.MPAS.C151_border_depends_on_hint"
   ],
   "note": "Hints must be below the number of cells (C151_bad_hint); on a common side the answer depends on the hint (C151_border_depends_on_hint)."
  },
  {
   "property": "C152",
   "status": "partial",
   "theorems": [
    "Verif.MPAS.C152_general",
    "Verif.MPAS.C152_inverse",
    "Verif.MPAS.C152_shortcut",
    "Verif.MPAS.C152_agree_partial",
    "Verif.MPAS.C152_shortcut_unknown",
    "Verif.MPAS.C152_no_cell"
   ],
   "note": "The agreement fails for unknown identifiers other than 0: C152_shortcut_unknown."
  },
  {
   "property": "C153",
   "status": "proved",
   "theorems": [
    "Verif.MPAS.C153_boundary",
    "Verif.MPAS.C153_invalid",
    "Verif.MPAS.C153_value",
    "Verif.MPAS.C153_constant",
    "Verif.MPAS.C153_affine"
   ],
   "note": "For centres that are not on a line; exact arithmetic."
  },
  {
   "property": "C154",
   "status": "partial",
   "theorems": [
    "Verif.MPAS.C154_found",
    "Verif.MPAS.C154_complete",
    "Verif.MPAS.C154_failure",
    "Verif.MPAS.C154_value",
    "Verif.MPAS.C154_bounds",
    "Verif.MPAS.C154_no_hint_partial",
    "Verif.MPAS.C154_no_hint_first_layer",
    "Verif.MPAS.C154_bad_hint"
   ],
   "note": "Complete when the hint is a layer. Without one (first evaluation) the first layer is never found: C154_no_hint_first_layer."
  },
  {
   "property": "C155",
   "status": "partial",
   "theorems": [
    "Verif.MPAS.C155_distance",
    "Verif.MPAS.C155_range",
    "Verif.MPAS.C155_seeds",
    "Verif.MPAS.C155_no_cell_overrun",
    "Verif.MPAS.C155_grid_points",
    "Verif.MPAS.C155_grid_first_partial",
    "Verif.MPAS.C155_grid_compounds",
    "Verif.MPAS.C155_accumulated"
   ],
   "note": "Grid of angles: proved. Seeds at grid points: only the first of a cell is right, the depths multiply up (C155_grid_compounds)."
  },
  {
   "property": "C156",
   "status": "partial",
   "theorems": [
    "Verif.MPAS.C156_steps_partial",
    "Verif.MPAS.C156_no_steps",
    "Verif.MPAS.C156_checkpoint"
   ],
   "note": "Holds for intervals of at least a day; shorter ones make no step: C156_no_steps."
  },
  {
   "property": "C157",
   "status": "proved",
   "theorems": [
    "Verif.Fil.C157_driver",
    "Verif.Fil.C157_schedule_independent"
   ],
   "note": "The mesh is abstract with layered simplices; the cell test is an arbitrary function (its numerics are C111-C114 and C35)."
  },
  {
   "property": "C158",
   "status": "partial",
   "theorems": [
    "Verif.Fil.C158_first_step_partial",
    "Verif.Fil.C158_next_step_data",
    "Verif.Fil.C158_last_step_undefined"
   ],
   "note": "Holds at timestep 0 only. Later timesteps use the data of the next one, the last reads a snapshot that is gone."
  },
  {
   "property": "C159",
   "status": "partial",
   "theorems": [
    "Verif.Fil.C159_surfaces_partial",
    "Verif.Fil.C159_irregular_dropped",
    "Verif.Fil.C159_last_interval_lost",
    "Verif.Fil.C159_not_a_surface"
   ],
   "note": "Points and joined triangles proved; four points give a closed tetrahedron, the last interval gives nothing."
  },
  {
   "property": "C160",
   "status": "proved",
   "theorems": [
    "Verif.Fil.C160_archive"
   ],
   "note": "The binary format itself is C38."
  },
  {
   "property": "C161",
   "status": "partial",
   "theorems": [
    "Verif.Fil.C161_seam_partial",
    "Verif.Fil.C161_two_planes"
   ],
   "note": "Three or more planes; wrong with two."
  },
  {
   "property": "C162",
   "status": "partial",
   "theorems": [
    "Verif.Fil.C162_result",
    "Verif.Fil.C162_extent",
    "Verif.Fil.C162_smoothing",
    "Verif.Fil.C162_keeps_partial",
    "Verif.Fil.C162_short_run_lost"
   ],
   "note": "Everything but the last clause; a run of two maxima after another type is lost: C162_short_run_lost."
  },
  {
   "property": "C163",
   "status": "proved",
   "theorems": [
    "Verif.Fil.C163_velocity"
   ],
   "note": ""
  },
  {
   "property": "C164",
   "status": "proved",
   "theorems": [
    "Verif.Synth.C164_gradient",
    "Verif.Synth.C164_rotation",
    "Verif.Synth.C164_critical_points",
    "Verif.Synth.C164_part",
    "Verif.Synth.C164_grid",
    "Verif.Synth.C164_capped"
   ],
   "note": "Real arithmetic for floating point; sizes of at least 2 for the spans."
  },
  {
   "property": "C165",
   "status": "proved",
   "theorems": [
    "Verif.Synth.C165_stream_function",
    "Verif.Synth.C165_divergence",
    "Verif.Synth.C165_boundary",
    "Verif.Synth.C165_grid"
   ],
   "note": "Real arithmetic for floating point."
  },
  {
   "property": "C166",
   "status": "proved",
   "theorems": [
    "Verif.Synth.C166_abc",
    "Verif.Synth.C166_grid"
   ],
   "note": "Real arithmetic for floating point."
  },
  {
   "property": "C167",
   "status": "partial",
   "theorems": [
    "Verif.Synth.C167_minimum_partial",
    "Verif.Synth.C167_distance",
    "Verif.Synth.C167_motion",
    "Verif.Synth.C167_gradient_wrong"
   ],
   "note": "All but the last clause; the generated gradient is minus half of the gradient: C167_gradient_wrong."
  },
  {
   "property": "C168",
   "status": "proved",
   "theorems": [
    "Verif.Synth.C168_ramps",
    "Verif.Synth.C168_volcano",
    "Verif.Synth.C168_merger"
   ],
   "note": "Real arithmetic for floating point."
  },
  {
   "property": "C169",
   "status": "partial",
   "theorems": [
    "Verif.APtr.C169_safe_partial",
    "Verif.APtr.C169_exact",
    "Verif.APtr.C169_turns",
    "Verif.APtr.C169_assign_leaks",
    "Verif.APtr.C169_self_assign_leaks",
    "Verif.APtr.C169_null_copy_undefined",
    "Verif.APtr.C169_default_leaks",
    "Verif.APtr.C169_race"
   ],
   "note": "Safety proved without null wrappers and with fewer than 2^31 operations, exact lifetime without assignment, schedules without interruption between decrement and test; the rest is violated (witnesses)."
  },
  {
   "property": "C170",
   "status": "partial",
   "theorems": [
    "Verif.Comm.C170_bcast_partial",
    "Verif.Comm.C170_scatter_partial",
    "Verif.Comm.C170_bcast_merges_maps",
    "Verif.Comm.C170_scatter_needs_values_everywhere"
   ],
   "note": "Proved for values that may be loaded over (all flat types and vectors; empty maps) and for scatter with the right number of values on every rank; maps that are not empty keep extra entries, and scatter asserts on ranks that pass nothing."
  },
  {
   "property": "C171",
   "status": "partial",
   "theorems": [
    "Verif.Str.C171_starts_with",
    "Verif.Str.C171_ends_with",
    "Verif.Str.C171_split",
    "Verif.Str.C171_split_trailing",
    "Verif.Str.C171_options",
    "Verif.Str.C171_unknown_option",
    "Verif.Str.C171_duration_pruning_ignored"
   ],
   "note": "All but duration_pruning, which is accepted and ignored. The regular expression engine is modelled for the one separator the code uses."
  },
  {
   "property": "C172",
   "status": "partial",
   "theorems": [
    "Verif.Str.C172_output_partial",
    "Verif.Str.C172_extension",
    "Verif.Str.C172_given_format",
    "Verif.Str.C172_polydata",
    "Verif.Str.C172_remove_extension",
    "Verif.Str.C172_no_dot_needed",
    "Verif.Str.C172_pvtp_never",
    "Verif.Str.C172_binary_overridden",
    "Verif.Str.C172_remove_extension_directory"
   ],
   "note": "Proved for recognised suffixes; violated for pvtp output, explicit binary output, names without a dot and dots in directories."
  },
  {
   "property": "C173",
   "status": "partial",
   "theorems": [
    "Verif.Str.C173_order_partial",
    "Verif.Str.C173_names_differ",
    "Verif.Str.C173_pieces_differ",
    "Verif.Str.C173_order_beyond_width"
   ],
   "note": "Names always differ; the order holds while timesteps fit the width. Patterns with one %d or %0wd conversion."
  },
  {
   "property": "C174",
   "status": "partial",
   "theorems": [
    "Verif.XG2.C174_region",
    "Verif.XG2.C174_new_mesh_partial",
    "Verif.XG2.C174_no_nextnodes",
    "Verif.XG2.C174_stale_node_map",
    "Verif.XG2.C174_field_without_flux"
   ],
   "note": "The region is exact when nextnodes was computed before; the new mesh is exact for an empty node_map. Otherwise accesses out of bounds or stale entries (witnesses)."
  },
  {
   "property": "C175",
   "status": "partial",
   "theorems": [
    "Verif.XG2.C175_eval_outside",
    "Verif.XG2.C175_eval_affine",
    "Verif.XG2.C175_eval_vertex",
    "Verif.XG2.C175_reaches_angle",
    "Verif.XG2.C175_no_steps",
    "Verif.XG2.C175_outside_fails",
    "Verif.XG2.C175_constant_slope",
    "Verif.XG2.C175_eq_angle",
    "Verif.XG2.C175_eq_plane_partial",
    "Verif.XG2.C175_total_planes_partial",
    "Verif.XG2.C175_total_seam",
    "Verif.XG2.C175_nextnode",
    "Verif.XG2.C175_nearest"
   ],
   "note": "Interpolation, angle reached, exactness for constant slopes, next node are proved; eval_L leaves the angle velocity uninitialised and the traced line ends at plane 0 instead of at 2 pi (witnesses). Exact arithmetic."
  },
  {
   "property": "C177",
   "status": "partial",
   "theorems": [
    "Verif.XG2.C177_unit_field",
    "Verif.XG2.C177_unit_zero",
    "Verif.XG2.C177_curl_formula",
    "Verif.XG2.C177_curl_partial",
    "Verif.XG2.C177_curl_wrong",
    "Verif.XG2.C177_delta_formula",
    "Verif.XG2.C177_delta_B",
    "Verif.XG2.C177_delta_B_partial",
    "Verif.XG2.C177_delta_B_sign_wrong",
    "Verif.XG2.C177_total_B"
   ],
   "note": "Unit and total fields proved; curl and perturbed field are proved to be what the code computes and to differ from the intended ones (lost derivatives, sign). Exact arithmetic."
  },
  {
   "property": "C176",
   "status": "partial",
   "theorems": [
    "Verif.Smooth.C176_scalar_gradient",
    "Verif.Smooth.C176_affine_exact",
    "Verif.Smooth.C176_vector_gradient_partial",
    "Verif.Smooth.C176_vector_affine",
    "Verif.Smooth.C176_vector_gradient_wrong",
    "Verif.Smooth.C176_affine_jacobian"
   ],
   "note": "Scalar gradients exact; the second derivative of vector gradients is overwritten (witness for every mesh). Exact arithmetic."
  },
  {
   "property": "C178",
   "status": "proved",
   "theorems": [
    "Verif.Smooth.C178_kernel"
   ],
   "note": "With the kernels empty before; the statement covers kernels already there (entries are appended)."
  },
  {
   "property": "C179",
   "status": "partial",
   "theorems": [
    "Verif.Smooth.C179_sums",
    "Verif.Smooth.C179_smooth_scalar",
    "Verif.Smooth.C179_derivatives_partial",
    "Verif.Smooth.C179_gradient_sign_wrong",
    "Verif.Smooth.C179_not_normalised"
   ],
   "note": "The Jacobian is the Hessian of the smoothed field, the gradient its negative; weights are not normalised (witnesses)."
  },
  {
   "property": "C180",
   "status": "partial",
   "theorems": [
    "Verif.XStr.C180_units_partial",
    "Verif.XStr.C180_unknown_name",
    "Verif.XStr.C180_members_not_read",
    "Verif.XStr.C180_no_semicolon",
    "Verif.XStr.C180_blank_line"
   ],
   "note": "Files of assignments of known names with a semicolon; otherwise a silent stop, a lost digit or undefined behaviour (witnesses). std::stod is a parameter."
  },
  {
   "property": "C181",
   "status": "partial",
   "theorems": [
    "Verif.XStr.C181_probe_partial",
    "Verif.XStr.C181_indented_comment",
    "Verif.XStr.C181_no_value"
   ],
   "note": "All files without indented comments containing an equality sign and without empty values (for those: undefined behaviour). std::stod is a parameter."
  },
  {
   "property": "C182",
   "status": "partial",
   "theorems": [
    "Verif.XStr.C182_step",
    "Verif.XStr.C182_available",
    "Verif.XStr.C182_step_suffix",
    "Verif.XStr.C182_delivers_partial",
    "Verif.XStr.C182_from_zero",
    "Verif.XStr.C182_default_start_wrong",
    "Verif.XStr.C182_missing_file",
    "Verif.XStr.C182_no_files",
    "Verif.XStr.C182_mpas",
    "Verif.XStr.C182_mpas_beyond"
   ],
   "note": "Exact when start and number lie within the files; with the default start 1 the first file is skipped and the list of files is overrun (witness). The contents of the files are not modelled."
  },
  {
   "property": "C183",
   "status": "proved",
   "theorems": [
    "Verif.Tube.C183_counts",
    "Verif.Tube.C183_short",
    "Verif.Tube.C183_no_patches",
    "Verif.Tube.C183_colors_needed",
    "Verif.Tube.C183_triangles",
    "Verif.Tube.C183_in_range",
    "Verif.Tube.C183_oriented",
    "Verif.Tube.C183_closed"
   ],
   "note": "All curves; integers do not overflow."
  },
  {
   "property": "C184",
   "status": "partial",
   "theorems": [
    "Verif.Tube.C184_ring_partial",
    "Verif.Tube.C184_distance_partial",
    "Verif.Tube.C184_finite_partial",
    "Verif.Tube.C184_repeated_point",
    "Verif.Tube.C184_right_angle"
   ],
   "note": "Regular polygons whenever the vertices are numbers; they are if consecutive points differ and no two consecutive segments are perpendicular; witnesses of NaN otherwise. Exact real arithmetic."
  },
  {
   "property": "C185",
   "status": "partial",
   "theorems": [
    "Verif.Tube.C185_color_partial",
    "Verif.Tube.C185_first_ring",
    "Verif.Tube.C185_first_color_unused"
   ],
   "note": "All rings but the first, which carries the colour of the second point (witness)."
  },
  {
   "property": "C186",
   "status": "proved",
   "theorems": [
    "Verif.Hash.C186_block",
    "Verif.Hash.C186_tail",
    "Verif.Hash.C186_seed",
    "Verif.Hash.C186_collision"
   ],
   "note": "All keys and seeds."
  },
  {
   "property": "C187",
   "status": "partial",
   "theorems": [
    "Verif.Hash.C187_sigma_partial",
    "Verif.Hash.C187_planes_partial",
    "Verif.Hash.C187_one_mesh_partial",
    "Verif.Hash.C187_sigma_double",
    "Verif.Hash.C187_coordinates_ignored",
    "Verif.Hash.C187_equilibrium_ignored"
   ],
   "note": "True for one mesh and float sigmas in a directory of its own; false for another mesh with the same triangles (witness), and not excluded for double sigmas."
  },
  {
   "property": "C188",
   "status": "partial",
   "theorems": [
    "Verif.ExM.C188_cells_partial",
    "Verif.ExM.C188_periodic_partial",
    "Verif.ExM.C188_injective_partial",
    "Verif.ExM.C188_all_partial",
    "Verif.ExM.C188_upper_partial",
    "Verif.ExM.C188_negative"
   ],
   "note": "Proved for all periods from 0 on and all ids that are not negative multiples of n(d); those are decoded outside the period (proved)."
  },
  {
   "property": "C189",
   "status": "partial",
   "theorems": [
    "Verif.ExM.C189_sides_missing",
    "Verif.ExM.C189_sideof_partial",
    "Verif.ExM.C189_first_period_partial",
    "Verif.ExM.C189_violated"
   ],
   "note": "sides is always empty; side_of is characterised for all ids k >= 0 and is right only for triangles of period 0 whose id agrees with that in the tetrahedral mesh; witnesses of wrong answers."
  },
  {
   "property": "C190",
   "status": "partial",
   "theorems": [
    "Verif.NcW.C190_accepted_partial",
    "Verif.NcW.C190_kept",
    "Verif.NcW.C190_defaults",
    "Verif.NcW.C190_violated"
   ],
   "note": "All configurations; the missing variable is not noticed because of the misspelt key foramt (witness: the data are silently lost)."
  },
  {
   "property": "C191",
   "status": "partial",
   "theorems": [
    "Verif.NcW.C191_header_partial",
    "Verif.NcW.C191_read_back_partial",
    "Verif.NcW.C191_element_partial",
    "Verif.NcW.C191_series_partial",
    "Verif.NcW.C191_round_trip_partial",
    "Verif.NcW.C191_components_violated"
   ],
   "note": "For arrays with as many dimensions as the configuration names and one variable; several variables all get the same data (witness). The NetCDF library itself is modelled by the documented meaning of nc_put_vara and nc_get_vara."
  },
  {
   "property": "C192",
   "status": "partial",
   "theorems": [
    "Verif.NcW.C192_dims",
    "Verif.NcW.C192_default_dims_1d",
    "Verif.NcW.C192_output_reads_outside",
    "Verif.NcW.C192_output_partial"
   ],
   "note": "Characterised exactly: the diagnostic output reads outside the vectors for every array with fewer than four dimensions (three with unlimited time)."
  },
  {
   "property": "C193",
   "status": "partial",
   "theorems": [
    "Verif.NcW.C193_first_partial",
    "Verif.NcW.C193_once_partial",
    "Verif.NcW.C193_violated"
   ],
   "note": "Each key keeps the array set first; right if every key is set once."
  },
  {
   "property": "C194",
   "status": "proved",
   "theorems": [
    "Verif.Smooth3.C194_kernel"
   ],
   "note": "All legal meshes, coordinates and sigma; exact reals.  The old content of the kernel is kept in front of the new one."
  },
  {
   "property": "C195",
   "status": "partial",
   "theorems": [
    "Verif.Smooth3.C195_sums",
    "Verif.Smooth3.C195_derivatives_partial",
    "Verif.Smooth3.C195_gradient_sign_wrong",
    "Verif.Smooth3.C195_not_normalised"
   ],
   "note": "Scalar and Hessian right for fresh arrays; the gradient has the wrong sign (witness), weights are not normalised, and the outputs are added to what the arrays contained."
  },
  {
   "property": "C196",
   "status": "partial",
   "theorems": [
    "Verif.FF.C196_tetrahedra",
    "Verif.FF.C196_distinct_partial",
    "Verif.FF.C196_two_planes_violated",
    "Verif.FF.C196_one_plane_violated"
   ],
   "note": "Placement proved for at least two planes, distinctness for at least three; both fail below (witnesses)."
  },
  {
   "property": "C197",
   "status": "partial",
   "theorems": [
    "Verif.FF.C197_init_partial",
    "Verif.FF.C197_init_violated",
    "Verif.FF.C197_find_violated",
    "Verif.FF.C197_other_dimensions_violated"
   ],
   "note": "The code is unfinished: creating dereferences a null pointer, nothing is ever found, lower-dimensional simplices are missing."
  },
  {
   "property": "C198",
   "status": "proved",
   "theorems": [
    "Verif.MatOps.C198_product",
    "Verif.MatOps.C198_matrix3x4_matrix4x2",
    "Verif.MatOps.C198_vectors",
    "Verif.MatOps.C198_small_products",
    "Verif.MatOps.C198_transpose_in_place",
    "Verif.MatOps.C198_transposes",
    "Verif.MatOps.C198_traces",
    "Verif.MatOps.C198_parts",
    "Verif.MatOps.C198_make_symmetric2"
   ],
   "note": "Over any commutative ring (field for the parts); exact arithmetic; outputs distinct from inputs unless in place."
  },
  {
   "property": "C199",
   "status": "partial",
   "theorems": [
    "Verif.MatOps.C199_product",
    "Verif.MatOps.C199_matrix3x4_matrix4x2_violated"
   ],
   "note": "Exactly the outputs that are too small are overrun; matrix3x4_matrix4x2_multiplication declares one that is too small."
  },
  {
   "property": "C200",
   "status": "proved",
   "theorems": [
    "Verif.MatOps.C200_versions",
    "Verif.MatOps.C200_bilinear",
    "Verif.MatOps.C200_trilinear",
    "Verif.MatOps.C200_bounds"
   ],
   "note": "Over any (ordered) field."
  },
  {
   "property": "C201",
   "status": "partial",
   "theorems": [
    "Verif.Vtu.C201_tetrahedra",
    "Verif.Vtu.C201_triangles_partial",
    "Verif.Vtu.C201_orientation_violated"
   ],
   "note": "Full for tetrahedral meshes; triangle meshes lose the orientation of their triangles.  Coordinates are rounded to the precision of vtkPoints (a parameter of the model)."
  },
  {
   "property": "C202",
   "status": "partial",
   "theorems": [
    "Verif.Vtu.C202_cells_partial",
    "Verif.Vtu.C202_fresh",
    "Verif.Vtu.C202_lookup_violated",
    "Verif.Vtu.C202_crash_violated"
   ],
   "note": "Cells and their neighbours are right; lookups answer from the old mesh, and with fewer points the code writes outside its vectors (witnesses)."
  },
  {
   "property": "C203",
   "status": "proved",
   "theorems": [
    "Verif.RatIneq.C203_critical",
    "Verif.RatIneq.C203_poles"
   ],
   "note": "For the recorded multiplicities: of several roots in one cell the last one's is recorded."
  },
  {
   "property": "C204",
   "status": "partial",
   "theorems": [
    "Verif.RatIneq.C204_cubic_partial",
    "Verif.RatIneq.C204_quadratic_partial",
    "Verif.RatIneq.C205_close_roots"
   ],
   "note": "For root lists that contain all real roots, pairwise in different cells, and a denominator not below the tolerance at grid points; false for roots in the same cell (witness).  Exact arithmetic; the root finders are C67."
  },
  {
   "property": "C205",
   "status": "partial",
   "theorems": [
    "Verif.RatIneq.C205_cubic_zero",
    "Verif.RatIneq.C205_quadratic_out_of_bounds",
    "Verif.RatIneq.C205_pole_in_result"
   ],
   "note": "Full for the cubic solver's degenerate cases; the quadratic solver reads past its array exactly for a zero denominator, and poles can be in the result (witnesses)."
  },
  {
   "property": "C206",
   "status": "proved",
   "theorems": [
    "Verif.Color.C206_hsi",
    "Verif.Color.C206_range",
    "Verif.Color.C206_exact"
   ],
   "note": "Exact real arithmetic; PI (not defined by zcolor.h itself) stands for \u03c0."
  },
  {
   "property": "C207",
   "status": "partial",
   "theorems": [
    "Verif.Color.C207_table_partial",
    "Verif.Color.C207_random",
    "Verif.Color.C207_one_colour",
    "Verif.Color.C207_first_is_last"
   ],
   "note": "Full for the size, the range and the rearrangement when the number of colours is not 1; one colour converts NaN, and the first and last colours of every table are equal (both proved)."
  },
  {
   "property": "C208",
   "status": "partial",
   "theorems": [
    "Verif.Filter.C208_devices",
    "Verif.Filter.C208_throws",
    "Verif.Filter.C208_names",
    "Verif.Filter.C208_threads"
   ],
   "note": "Full for devices and names; the number of threads is at least one exactly when the machine reports a number of hardware threads or there are several processes: otherwise it is 0, and parallel_for never ends (C07_zero_threads_never_finishes)."
  }
 ]
}