#!/usr/bin/env python3
"""Writes ../MANIFEST.json from the table below; checks the theorem names exist."""
import json, os, re, glob
R = os.path.join(os.path.dirname(os.path.abspath(__file__)), "..")
C = []
def c(prop, status, theorems, note=""):
    C.append(dict(property=prop, status=status, theorems=theorems.split(), note=note))
U="Verif.UF."
c("C01","proved","Verif.UF.C01_same_set_iff_connected Verif.UF.C01_find_absent_is_undefined")
c("C02","proved","Verif.UF.C02_find_canonical_and_pure")
c("C03","proved","Verif.UF.C03_get_sets_partition")
c("C04","proved","Verif.UF.C04_simple_same_set_iff_connected Verif.UF.C04_out_of_range_is_undefined")
c("C05","proved","Verif.UF.C05_duf_find_is_least_connected Verif.UF.C05_duf_order_independent Verif.UF.C05_duf_get_roots")
c("C06","partial","Verif.UF.C06_concurrent_unite_sound_partial Verif.UF.C06_concurrent_unite_complete_partial Verif.UF.C06_concurrent_unite_loses_update",
  "Acyclicity, termination and soundness proved for every schedule; completeness is false of the code (lost update, witness proved) and proved only for schedules whose writes never overwrite a link.")
c("C07","proved","Verif.Par.C07_parallel_for_at_most_once Verif.Par.C07_parallel_for_exactly_once Verif.Par.C07_parallel_for_terminates Verif.Par.C07_container_exactly_once Verif.Par.C07_zero_threads_never_finishes")
c("C08","proved","Verif.Lat.C08_lattice_index_bijection Verif.Lat.C08_contains_iff_inBox")
c("C09","proved","Verif.Lat.C09_partition_tiles Verif.Lat.C09_partition_defined Verif.Lat.C09_partition_succeeds Verif.Lat.C09_short_given_is_undefined")
c("C10","proved","Verif.Lat.C10_extent_exact Verif.Lat.C10_extent_contains_core Verif.Lat.C10_no_ghost")
c("C11","proved","Verif.Lat.C11_prime_factorization Verif.Lat.C11_zero_does_not_terminate")
c("C12","proved","Verif.SRM.C12_from_to Verif.SRM.C12_to_from Verif.SRM.C12_to_integer_injective Verif.SRM.C12_dimensions_collide")
c("C13","proved","Verif.SRM.C13_element_for_exactly_once Verif.SRM.C13_element_for_ordinal Verif.SRM.C13_element_for_interval Verif.SRM.C13_to_work_index_forgets_type")
c("C14","proved","Verif.SRM.C14_sides Verif.SRM.C14_side_of Verif.SRM.C14_sides_side_of_dual Verif.SRM.C14_extreme_dimensions Verif.SRM.C14_facet_has_two_cofaces")
c("C15","proved","Verif.SRM.C15_subdivision_is_kuhn Verif.SRM.C15_unit_simplices")
c("C16","proved","Verif.SRM.C16_ordinal_interval_partition Verif.SRM.C16_times")
c("C56","proved","Verif.SRM.C56_element_order Verif.SRM.C56_order_ignores_dimension","Across dimensions the order does not separate unequal elements; the negation is proved.")
c("C17","proved","Verif.Gr.C17_bfs_visits_reachable")
c("C18","proved","Verif.Gr.C18_components Verif.Gr.C18_components_criterion Verif.Gr.C18_components_nodes Verif.Gr.C18_components_bfs Verif.Gr.C18_bfs_needs_symmetry")
c("C21","proved","Verif.Gr.C21_linear_components Verif.Gr.C21_is_loop Verif.Gr.C21_two_node_curve_is_a_loop")
c("C57","proved","Verif.Gr.C57_label_components")
c("C58","partial","Verif.Gr.C58_overlap_pairs Verif.Gr.C58_label_pairs_partial Verif.Gr.C58_same_label_is_dropped","The label version drops pairs with equal labels, so the full statement is false of it; the exact behaviour is proved, and the witness.")
c("C19","partial","Verif.HK.C19_labelling_partial Verif.HK.C19_defined_iff Verif.HK.C19_out_of_bounds_witnesses","The full statement is false: the labels vector has nelem/2 entries and is indexed out of bounds on inputs such as checkerboards (C19_out_of_bounds_witnesses). C19_defined_iff characterises exactly when no out-of-bounds access happens; C19_labelling_partial proves the labelling correct in every such case.")
c("C20","proved","Verif.Dij.C20_shortest_path Verif.Dij.C20_unreachable_undefined","Distances in any linearly ordered commutative monoid; unreachable destination is undefined behaviour (proved).")
c("C22","proved","Verif.TG.C22_event_type Verif.TG.C22_three_way_split_is_compound Verif.TG.C22_detect_events_interval Verif.TG.C22_detect_events Verif.TG.C22_timesteps Verif.TG.C22_detect_twice_doubles","")
c("C59","proved","Verif.TG.C59_relabel Verif.TG.C59_one_to_one_edge_keeps_label Verif.TG.C59_split_does_not_change_label","")
c("C60","proved","Verif.TG.C60_tracker_records_overlaps Verif.TG.C60_isolated_feature_is_lost Verif.TG.C60_undefined_uses","")
V="Verif.Curve."
c("C23","proved",V+"C23_adjust_time","")
c("C24","partial",V+"C24_split_partial "+V+"C24_split_loses_points","The full statement is false: split drops the first point of each new type run (C24_split_loses_points). Proved: pieces non-empty and of one type, concatenation is a subsequence, equal to the curve iff all types agree.")
c("C25","proved",V+"C25_intercept "+V+"C25_unordered_and_empty","Under the documented precondition (time-ordered, non-empty).")
c("C26","proved",V+"C26_rotate "+V+"C26_reorder","rotate on an empty loop is undefined (part of C26_rotate).")
c("C27","proved",V+"C27_statistics "+V+"C27_empty_keeps_old","")
c("C28","proved",V+"C28_ids "+V+"C28_add "+V+"C28_explicit_label "+V+"C28_from_list_keeps_old_ids","")
c("C61","proved",V+"C61_smooth_ordinal_types","")
c("C62","proved",V+"C62_smooth_interval_types","")
c("C63","proved",V+"C63_post_process "+V+"C63_split_all_types "+V+"C63_rotate_after_discard_undefined","The parsing of the operation string is not modelled.")
c("C64","proved",V+"C64_derive_velocity","Over an ordered field, no rounding.")
c("C65","proved",V+"C65_unwrap","Over an ordered field, no rounding.")
c("C66","proved",V+"C66_split_geo","Over an ordered field, no rounding.")
c("C29","proved","Verif.SoS.C29_never_zero2 Verif.SoS.C29_never_zero3 Verif.SoS.C29_never_zero4 Verif.SoS.C29_positive1_pm Verif.SoS.C29_positive2_pm Verif.SoS.C29_positive3_pm Verif.SoS.C29_perm1 Verif.SoS.C29_perm2 Verif.SoS.C29_perm3 Verif.SoS.C29_swap2 Verif.SoS.C29_swap3 Verif.SoS.C29_equal_indices_not_antisymmetric","Coordinates are mathematical integers (no long long overflow). Distinct indices are necessary (witness theorem).")
c("C30","proved","Verif.SoS.C30_positive1 Verif.SoS.C30_positive2 Verif.SoS.C30_positive3 Verif.SoS.C30_exact1 Verif.SoS.C30_exact2 Verif.SoS.C30_exact3 Verif.SoS.C30_robust_smaller","Perturbation x_j + eps^(2^(d*(v-lo)+(d-1-j))) over the reals; spec in SoS/Spec.lean uses Mathlib's determinant. No overflow modelled.")
c("C31","proved","Verif.SoS.C31_inside1 Verif.SoS.C31_inside2 Verif.SoS.C31_inside3 Verif.SoS.C31_perm1 Verif.SoS.C31_perm2 Verif.SoS.C31_perm3","Inside = strictly positive barycentric coordinates.")
c("C32","proved","Verif.SoS.C32_triangle Verif.SoS.C32_tetrahedron Verif.SoS.C32_pentatope Verif.SoS.C32_critical_point_2d Verif.SoS.C32_critical_point_3d","Derived from a general-position theorem proved for every dimension (SoS/Geo.faces_zero_or_two).")
c("C33","proved","Verif.Num.C33_det2 Verif.Num.C33_det3 Verif.Num.C33_det4 Verif.Num.C33_adjugate2 Verif.Num.C33_adjugate3 Verif.Num.C33_matMul Verif.Num.C33_matVec2 Verif.Num.C33_matVec3 Verif.Num.C33_mat2x3Vec3 Verif.Num.C33_mat2x2Mat2x2 Verif.Num.C33_mat2x2Mat2x3 Verif.Num.C33_mat2x3Mat3x2 Verif.Num.C33_transpose3x2 Verif.Num.C33_transpose4x3 Verif.Num.C33_inverse2 Verif.Num.C33_inverse3 Verif.Num.C33_inverse4 Verif.Num.C33_solve2 Verif.Num.C33_solve3 Verif.Num.C33_charPoly2 Verif.Num.C33_charPoly2g Verif.Num.C33_charPoly3 Verif.Num.C33_charPoly3g Verif.Num.C33_leastSquare3x2 Verif.Num.C33_leastSquare3x2_2 Verif.Num.C33_leastSquare4x3_3 Verif.Num.C33_cross Verif.Num.C33_cross_det Verif.Num.C33_leastSquare2x1 Verif.Num.C33_leastSquare3x1","Exact arithmetic over an arbitrary commutative ring / field; against Mathlib determinants, inverses and least-squares minimisers. Condition numbers and rounding not modelled.")
c("C54","proved","Verif.Num.C54_s1v1 Verif.Num.C54_s1v1_success Verif.Num.C54_s2v2 Verif.Num.C54_s2v2_success Verif.Num.C54_s3v3 Verif.Num.C54_s3v3_success Verif.Num.C54_vertex_zero Verif.Num.C54_s1v2_least_squares Verif.Num.C54_s2v3 Verif.Num.C54_s1v2_false_positive Verif.Num.C54_integer_s1v2 Verif.Num.C54_clamp Verif.Num.C54_clampBarycentric Verif.Num.C54_robust_then_solve2 Verif.Num.C54_robust_then_solve3","Exact arithmetic. The over-determined s1v2 is least squares; success without a zero is a finding (C54_s1v2_false_positive). C54_robust_then_solve2/3 connect the robust integer test with the solver.")
R_="Verif.Rational."
c("C34","partial"," ".join(R_+x for x in "C34_gcd C34_addAssign_partial C34_subAssign_partial C34_mulAssign_partial C34_divAssign_partial C34_int_ops C34_lt_partial C34_ltInt C34_eq_partial C34_eqInt_gtInt C34_normalize C34_plus_wrong C34_minus_wrong C34_negative_denominator C34_unreduced_eq".split()),"The full statement is false: free operator+/- return b+b/b-b, and ==/< need reduced/positive-denominator operands (witnesses proved). Proved: +=, -=, *=, /=, integer operations for all non-zero denominators; < for positive denominators; == for reduced operands. Unbounded integers.")
I_="Verif.Interval."
c("C35","partial"," ".join(I_+x for x in "C35_empty C35_contains_partial C35_overlaps_false C35_overlaps_true C35_intersect C35_history_partial C35_history_overlaps_partial C35_join_wrong C35_insert_dropped C35_contains_empty_wrong".split()),"The full statement is false for open ends (join drops open flags), for intervals with the same lower end, and for empty intervals (witnesses proved). Proved for any history of closed-interval operations.")
P_="Verif.Poly."
c("C36","partial"," ".join(P_+x for x in "C36_evaluate C36_addition C36_subtraction_partial C36_subtraction_wrong_sign C36_in_place C36_copy C36_scalar C36_derivative C36_evaluate_derivative C36_multiplication C36_evaluate_ops C36_equals_to".split()),"Against Mathlib's Polynomial, over any commutative ring, all degrees. Subtraction with m<n returns the negated result (proved), hence partial; everything else is proved in full. Rounding and overlapping buffers not modelled.")
T_="Verif.CPType."
c("C37","partial"," ".join(T_+x for x in "C37_eigenvalues_sym2 C37_type2_symmetric C37_eigenvalues2 C37_type2_general C37_eigenvalues_sym3 C37_type3_symmetric C37_make_symmetric C37_type3_general_unknown".split()),"2-D (symmetric and general) and 3-D symmetric classification proved exactly over the reals (definiteness of the form / complex eigenvalues). The 3-D general case is not implemented in the code (always UNKNOWN, proved), hence partial. Rounding not modelled.")
X_="Verif.FixedPoint."
c("C53","partial"," ".join(X_+x for x in "C53_conversion C53_exact C53_mul C53_compare C53_div_wrong".split()),"Everything except division is proved; division is wrong in the code (x/x = 0, proved). Overflow not modelled.")
Q_="Verif.Roots."
c("C67","partial"," ".join(Q_+x for x in "C67_quadratic_multiplicity C67_cubic_multiplicity C67_quadratic_partial C67_quadratic_out_of_bounds C67_cubic_partial C67_cubic_uninitialised".split()),"The _multiplicity versions are proved in full against Mathlib's rootMultiplicity. The array versions are proved except for zero constant coefficient with non-zero leading quadratic coefficient, where the code writes x[n+1] (out of bounds / leaves a root uninitialised, proved). Exact real arithmetic.")
Q_="Verif.ND."
def nd(x): return " ".join(Q_+y for y in x.split())
c("C38","proved",nd("C38_reachable C38_index_bijective C38_read_write C38_reshape C38_fill_vector_breaks_shape"),"Every array built by reshape is shaped and its index map is a bijection onto the storage; fill(vector) with a wrong length is the one call that breaks the invariant (proved).")
c("C39","partial",nd("C39_transpose C39_involution C39_transpose_drops_flags C39_transpose_5d"),"Proved for 2-D to 4-D arrays; get_transpose drops the multicomponent/time flags and is fatal for five or more dimensions (both proved).")
c("C40","partial",nd("C40_slice C40_stack C40_concat C40_slice_time C40_stack_slice_time C40_slice_time_1d C40_subarray_multicomponent"),"slice_time is fatal on 1-D arrays and subarray of a multicomponent array is out of bounds (proved).")
Q_="Verif.Ser."
c("C41","partial",nd("C41_ndarray C41_feature_point C41_mesh_element C41_feature_surface C41_feature_curve_partial C41_curve_loses_loop C41_vector C41_map C41_set C41_two_objects C41_map_load_merges C41_point_map"),"Round trip proved for every serialised type; the curve serializer loses id, loop and vmmin/vmmax (proved), so curves round-trip only up to these fields.")
Q_="Verif.ND."
c("C42","partial",nd("C42_min_max_partial C42_min_max_any C42_max_of_negative_floats C42_clamp C42_maxabs C42_resolution"),"min_max is correct when the element type's numeric_limits::min() is not above the maximum; for floating-point arrays of negative values the maximum is wrong (proved).")
c("C43","proved",nd("C43_out_of_bound C43_value C43_grid_position C43_between C43_affine C43_last_position"),"Exact rational arithmetic.")
c("C68","proved",nd("C68_add C68_add_assign C68_from_array C68_add_shape_mismatch"),"Shape mismatch reads out of bounds (proved).")
Q_="Verif.Comm."
c("C45","proved",nd("C45_gather_fold C45_allgather_fold C45_gather C45_allgather C45_gather_set"),"Byte-level model of serialization, displacements and buffers; every MPI delivery order; total size within int.")
c("C46","proved",nd("C46_redistribute C46_exactly_one"),"Any hash function, number of ranks and delivery order.")
c("C55","partial",nd("C55_all2all_partial C55_all2all_loses_data"),"True for one or two ranks; with three ranks data is lost because every receive displacement is zero (proved).")
Q_="Verif.Stream."
c("C44","partial",nd("C44_streaming_partial C44_online C44_short_series C44_finish_empty"),"Proved for series at least as long as the kernel; false for shorter ones and undefined for empty ones (proved). The reported timestep depends on the compiler's argument evaluation order.")
Q_="Verif.KD."
c("C49","proved",nd("C49_nearest C49_naive C49_agree C49_max_level C49_empty"),"Exact arithmetic; every implementation of std::nth_element. With a binding max_level the nearest point is not found, and building on no points is out of bounds (both proved).")
Q_="Verif.CT."
c("C50","proved",nd("C50_symmetric C50_reduce C50_branching C50_isolated"),"reduce_node on an isolated node invents an arc -1 -> -1, and on a node whose arcs were reduced away it is undefined (proved); reduce() never gets there.")
Q_="Verif.UM."
c("C69","proved",nd("C69_build_defined C69_get_triangle C69_find_triangle C69_chirality C69_vertex_triangles"),"Every iteration order of the hash containers; edge-manifold meshes.")
c("C70","partial",nd("C70_edges C70_find_edge C70_sides C70_side_of C70_duality C70_vertex_neighbours C70_adjacency_partial C70_adjacency_incomplete C70_nonmanifold_corrupts C70_duplicates_undefined"),"All proved except the METIS adjacency, which is sound but incomplete because its loop stops at n(2) instead of n(1) (proved). With three triangles on an edge the tables are corrupted (proved).")
c("C71","partial",nd("C71_partition_partial C71_exactly_one_rank C71_vertices_wrong C71_gid2lid_wrong"),"Triangles and edges proved; local vertices are filled from the edge set and the gid2lid maps are filled the wrong way round (both proved).")
Q_="Verif.XM."
c("C51","partial",nd("C51_get_simplex C51_every_simplex C51_find_simplex C51_find_get_partial C51_enumeration C51_ordinal C51_negative_vertex C51_negative_multiple C51_find_negative C51_find_order"),"Ids are in bijection with the simplices of the product triangulation; find_simplex inverts get_simplex at non-negative times. False at negative times (mod of a negative multiple is n; flat_vertex_time divides unsigned) and find_simplex depends on vertex order and accepts pairs that are no edges (all proved).")
c("C52","partial",nd("C52_sides C52_side_of C52_duality_partial C52_neighbours_partial C52_negative_sides C52_negative_side_of C52_neighbours_incomplete"),"Proved for faces at non-negative times and all tetrahedra whose id is not a negative multiple of n(3); false for the others (proved). get_vertex_edge_vertex misses the diagonal edges (proved).")
Q_="Verif.Trk."
c("C47","proved",nd("C47_exactly_once C47_driver C47_one_process C47_processes_together C47_schedule_independent C47_early_advance_skips_interval C47_no_snapshot_undefined"),"Any check_simplex, number of threads and processes. An advance with a single snapshot skips that interval for ever, and without any snapshot it is undefined (both proved).")
c("C48","proved",nd("C48_online_step C48_online_history C48_online_nothing_lost C48_streaming_tracker C48_joining_trajectories_stay_split C48_streaming_loses_last_timestep C48_update_twice_duplicates"),"Online tracing loses and duplicates nothing it is given; joining trajectories stay split; the driver never hands it the last timestep; calling update_timestep twice duplicates points (all proved).")
c("C72","proved",nd("C72_follows C72_tracker_2d C72_tracker_3d C72_tracker_2d_dyadic C72_tracker_3d_dyadic C72_factor_change_breaks_curves C72_nan_breaks_curves"),"One process, finite values, one quantisation factor throughout (always so with GMP rationals). Without GMP the factor is recomputed for each timestep and a curve can end inside the box; so can it with a NaN (both proved).")
Q_="Verif.Quad."
c("C73","partial",nd("C73_build C73_locate_sound C73_locate_complete_partial C73_locate_recursive C73_locate_interior C73_same_centroid_diverges C73_upper_boundary_missed"),"Every claim except completeness is proved in full.  Completeness is proved for the points below the upper and left of the right end of some containing triangle (interior points among them); it is false for points on the upper and right boundary, because the boxes are half-open: C73_upper_boundary_missed.  Exact arithmetic.")
Q_="Verif.RM."
c("C74","proved",nd("C74_sides C74_side_of C74_counts C74_iteration"),"")
Q_="Verif.Ode."
c("C75","proved",nd("C75_linear C75_constant C75_quadrature C75_first_failure C75_success C75_late_failure_moves_point"),"Exact arithmetic over any field of characteristic 0.  A failure after the first evaluation leaves the point at an intermediate position (C75_late_failure_moves_point).")
c("C76","proved",nd("C76_rodrigues C76_keeps_norm C76_fixes_axis C76_zero_axis C76_angular_step C76_zero_velocity C76_vertical_step C76_vertical_step_exact C76_spherical_step C76_spherical_rk4"),"Exact real arithmetic.  Zero velocity gives NaN: C76_zero_velocity.")
Q_="Verif.Grad."
c("C77","partial",nd("C77_gradient3D C77_gradient3D_exact_partial C77_gradient3Dt C77_gradient2Dt C77_gradient2D C77_gradient2D_affine C77_jacobian2Dt C77_jacobian3D C77_vorticity3D C77_cross_product3D C77_Jv C77_jacobian2D_symmetric C77_jacobian2D_constant C77_jacobian2D_off_diagonal C77_jacobian3Dt_out_of_bounds"),"Proved for gradient3D, gradient3Dt, gradient2Dt, jacobian2Dt, jacobian3D and the products.  False for the others, each with a proof: gradient2D is twice the derivative inside and once on the boundary, jacobian2D is wrong even for constant fields (missing parenthesis) and leaves its off-diagonal entries 0, vorticity3D is twice the curl, jacobian3Dt reads out of bounds.")
Q_="Verif.Conv."
c("C79","partial",nd("C79_conv2D_partial C79_conv3D_partial C79_constant C79_too_large C79_gaussian_kernel C79_gaussian_kernel2D"),"Everything proved except that constants are kept: the code divides by the number of kernel entries as well (C79_constant).  A kernel larger than the padded data makes the output size wrap (C79_too_large).  Exact arithmetic.")
Q_="Verif.Num."
c("C78","partial",nd("C78_gradient_2dsimplex2_partial C78_affine_interpolant C78_jacobian_2dsimplex2 C78_jacobian_3dsimplex C78_gradient_3dsimplex2_wrong"),"Proved for all but gradient_3dsimplex2, which always returns third component 0 or solves a singular system (typo X[2][2]-X[2][2], proved).  gradient_3dsimplex3 does not compile.  Exact arithmetic.")
c("C80","partial",nd("C80_one_norm2_partial C80_one_norm3 C80_inf_norm2 C80_cond2 C80_cond3 C80_frobenius C80_decomposition"),"All proved except the Frobenius norms, which lack the square root (C80_frobenius).  matrix_2norm_real2x2 does not compile.  Exact arithmetic.")
Q_="Verif.Roots."
c("C81","partial",nd("C81_quadratic C81_cubic C81_quartic_partial C81_quartic_nan C81_quartic_unit_roots_nan"),"quartic_solve: proved whenever no division by zero occurs; for some quartics with simple roots, such as x^4-1, it divides by zero and returns NaN (proved).  Exact complex arithmetic, principal powers.")
Q_="Verif.Num."
c("C82","partial",nd("C82_normalize C82_eigenvectors2_partial C82_eigenvectors3_partial"),"Proved for every eigenvalue without an eigenvector of coordinate sum 0; for an eigenvalue with such an eigenvector the result is NaN (second half of both theorems).  Exact arithmetic.")
Q_="Verif.Ctr."
c("C83","proved",nd("C83_contour_edges C83_schedule_independent"),"One process, times from 0; array values are exact rationals, the 2^20 quantisation and the simulation-of-simplicity predicate of the code are modelled.  The 3-D tracker reads its gradient at global coordinates: the array must cover the domain also without subtracting its start.")
c("C84","partial",nd("C84_contour_point_partial C84_point_leaves_edge"),"Everything is proved except that the point lies between the ends of its edge when both values exceed the threshold, one of them by less than 2^-21: there the code extrapolates and the point can leave the edge (C84_point_leaves_edge).")
c("C85","proved",nd("C85_surface C85_watertight C85_order"),"Stated for pairs of points: also covers the diagonals inside a cell (in two triangles).")
c("C86","partial",nd("C86_isovolume_partial C86_triangular_patches C86_quadrilaterals_do_not_fit"),"Array safety, points, decomposition of every cell and fitting of triangular patches are proved.  Quadrilateral patches shared by two cells may be cut along different diagonals (C86_quadrilaterals_do_not_fit), so the whole is not watertight.")
Q_="Verif.Surf."
c("C87","partial",nd("C87_line C87_volume C87_surface_partial C87_pentagon_fifth_point"),"Proved for lines, volumes and surfaces; for surfaces without pentagons in full, with pentagons for the connection through their first four points: the fifth is not joined (C87_pentagon_fifth_point).")
c("C88","partial",nd("C88_slice C88_slice_time_partial C88_slice_time_misses_triangle"),"slice is proved in full.  slice_time ignores tetrahedra with a point of another timestep (C88_slice_time_misses_triangle), the theorem says exactly which triangles it reports.")
c("C89","proved",nd("C89_line C89_slice_time C89_two_point_line_is_a_loop"),"The loop flag is proved as the code computes it; a consequence is that an open curve of two points is flagged as loop (C89_two_point_line_is_a_loop).")
c("C90","partial",nd("C90_discard_partial C90_discard_apart C90_keeps_flagged C90_stale_quads"),"Termination, points kept and triangles are proved for all surfaces; that no selected point is left is proved if no two selected points share a triangle and false otherwise (C90_keeps_flagged).  Quadrilaterals and pentagons are not renumbered (C90_stale_quads).  Distances are exact rationals.")
c("C91","partial",nd("C91_reorient_partial C91_breaks_orientation C91_leaves_disagreement C91_no_triangles"),"Termination and 'only flips' are proved for surfaces with a triangle; agreement is false: the code flips triangles that agree.  Without triangles it reads out of bounds.")
Q_="Verif.UTrk."
c("C92","partial",nd("C92_exactly_once C92_driver C92_streaming C92_schedule_independent C92_detected_iff C92_punctured C92_punctured_partial C94_degenerate_dropped"),"Everything is proved for all meshes, series and schedules except that a punctured triangle yields a point: proved when quantisation is exact; in general a triangle whose unquantised vectors are degenerate is dropped (C94_degenerate_dropped).")
c("C93","proved",nd("C93_weights C93_position C93_exact"),"Without exact quantisation the solver's weights are clamped and the interpolated vector need not be zero.")
c("C94","partial",nd("C94_follows_partial C94_follows_dyadic C94_degenerate_dropped"),"Proved in full for values that are multiples of 1/256; for others assuming one scaling factor throughout and no punctured triangle whose unquantised vectors are degenerate (otherwise false, C94_degenerate_dropped).  No filter, one process, offline tracing.")
Q_="Verif.SoS."
c("C95","proved",nd("C95_hit1 C95_hit2 C95_hit3 C95_negative_index")+" Verif.Num.C95_solve2 Verif.Num.C95_solve3","Follows from a dimension-free lemma on the perturbation.  The hypothesis on the indices is needed (C95_negative_index).")
Q_="Verif.CLT."
c("C96","proved",nd("C96_detects C96_point C96_zero_dyadic"),"One process, CPU, exact numbers; the model is generic in what is read at a vertex, so the derived trackers (Sujudi-Haimes, Levy-Degani-Seginer, ridge/valley) are instances.")
c("C97","partial",nd("C97_ring C97_surface_partial C97_quad_closed"),"Everything is proved except that the triangles fill the polygon: false for four corners (all four triangles, a closed surface, C97_quad_closed) and five (nine of the ten triangles).")
c("C98","proved",nd("C98_lines"),"One process.  The curves are lists of triangles in order; the loop flag is not part of the statement (the code never sets it).")
Q_="Verif.Swirl."
c("C99","proved",nd("C99_sujudi_haimes C99_ridge_valley"),"the whole path from the pushed array to the recorded points, on top of the operators of C77 and the tracker of C96")
c("C100","proved",nd("C100_swirl disc_eigenvalue"),"eigenvalues over the complex numbers; the code reads the Jacobian transposed, which the characteristic polynomial does not see")
c("C101","partial",nd("C101_levy_degani_seginer_partial C101_vortmag_zero"),"the code's vortmag uses two of the three components; witness: a vortex along z gets vortmag 0")
c("C102","partial",nd("C102_parallel_partial C102_not_parallel C102_planar_none"),"only the first two components of the cross product are tested; witnesses in both directions")
c("C103","partial",nd("C103_any_domain C103_cli_spurious"),"the loop is safe and its result is given exactly on every domain; but on the outer layers the derived arrays are left at zero, and on the domain of the command line program a spurious point is proved to be found")
Q_="Verif.Tdgl."
c("C104","proved",nd("C104_contour C104_winding"),"over the real numbers with the real pi (no rounding)")
c("C105","partial",nd("C105_circulation C105_flux_partial C105_kex C105_flux_lost C105_flux_lost_first"),"the exact circulation is given for every field; it is the flux only if B[1] = 0, or B[1] > 0 and B[0] = 0; witnesses for B[1] < 0 and for B[0] with B[1] > 0")
c("C106","proved",nd("C106_branches C106_gauge C106_place"),"")
c("C107","proved",nd("C107_detects"),"on top of the generic scan (C91 machinery); one process, CPU")
c("C108","partial",nd("C108_conserved C108_even C108_two C108_tie C108_four"),"holds if no phase difference is exactly half a turn; witness for ties. The even count needs circulations below half a turn, 0 or 2 needs no circulation; witness with four crossed faces in a field")
c("C109","partial",nd("C109_located_partial C109_found C109_outside"),"both directions without circulation and ties; with a field the point can lie outside its triangle (witness)")
c("C110","partial",nd("C110_ring C110_surface_partial C110_free"),"for series without circulation and ties (C110_free: met by series without a field); with a field a 4-simplex may have more crossed triangles")
Q_="Verif.PT."
c("C111","proved",nd("C111_series C111_single C111_schedule C111_checkpoint_ignored"),"one process; the set_nsteps_per_checkpoint argument is ignored (always 16)")
c("C112","proved",nd("C112_interval C112_series C112_times_sorted"),"exact arithmetic")
c("C113","partial",nd("C113_complete_or_outside_partial C113_stuck_outside C113_recorded_outside"),"completeness and staying put are proved; the recorded place is an unfinished RK stage outside the grid, not the boundary (witness)")
c("C114","proved",nd("C114_interval C114_series"),"exact arithmetic; room = a box around the seed inside the grid")
c("C115","partial",nd("C112_series C115_small_delta_t C115_large_delta_t C115_seed_between_steps"),"holds for delta_t = 1 and seeds at time steps (C112_series); fails for every 0 < delta_t < 1 (all later intervals frozen) and for witnesses with delta_t = 2 and a seed between time steps")
c("C116","proved",nd("C116_affine"),"exact arithmetic")
c("C117","proved",nd("C117_seeds C117_seeds_inside C117_given"),"up to 3 dimensions")
c("C118","partial",nd("C114_interval C118_velocity_lags"),"the recorded velocity is indeterminate at the first point of an interval and lags one step behind elsewhere (C114_interval gives it exactly for uniform velocities; witness)")
Q_="Verif.Ineq."
c("C119","partial",nd("C119_linear_partial C119_tiny_slope"),"exact unless 0 < |a| < machine epsilon (there the result is wrong for every b >= 0)")
c("C120","partial",nd("C120_cubic_partial C120_cubic_sound C120_isolated_zero C120_undefined"),"the result is the closure of {P > 0}; isolated zeros are missed and two families of polynomials read an uninitialised root")
c("C121","proved",nd("C121_evaluate_rational C121_evaluate_rational_infinity C121_zero_denominator"),"exact arithmetic, epsilon tests exact on the tested values")
Q_="Verif.U3."
c("C122","partial",nd("C122_build_partial C122_cells C122_find C122_order C122_side_of C122_side_of_vertex C122_vertex_neighbours C122_constructor_unusable C122_sides_missing"),"all queries exact for a mesh initialised as from_vtu does; the public constructor never initialises the tables and sides() returns nothing (both proved)")
Q_="Verif.X3."
c("C123","partial",nd("C123_get_simplex_partial C123_every_simplex_partial C123_pentachoron_wrong C123_pentachoron_unreachable C123_enumeration_partial C123_enumeration_pentachora C123_interval_wrong C123_ordinal C123_vertex C123_negative_multiple"),"exact but for pentachora of type 3 (a vertex twice), element_for_interval(4, t) (visits the next interval) and negative multiples of n(d), each proved wrong")
c("C124","proved",nd("C124_numbering C124_duality C124_two_cofaces"),"non-negative ids; with respect to the numbering of the true pentachora, which get_simplex gives except for type 3")
c("C125","partial",nd("C125_sides C125_side_of_partial C125_side_of_vertical C125_side_of_incomplete"),"sides(3) exact; side_of(2) sound, exact for triangles with an edge along time, proved incomplete for others")
Q_="Verif.X3T."
c("C126","partial",nd("C126_detected_iff C126_exactly_once C126_driver C126_schedule_independent C126_punctured_partial C126_punctured C126_push_lost"),"exact detection for push_field_data_snapshot; VIOLATED for push_vector_field_snapshot, which does nothing, so the next update reads an empty deque; punctured tetrahedra with affinely dependent vectors are dropped (impossible when quantisation is exact)")
c("C127","partial",nd("C127_weights_partial C127_position_partial C127_exact C127_weights_wrong C127_position_wrong"),"exact when quantisation is exact; otherwise the fallback writes mu[2] twice and leaves mu[3]: VIOLATED, witness with weights summing up to 4 and a point outside of its tetrahedron")
c("C128","partial",nd("C128_follows_partial C128_follows_dyadic"),"needs that the scaling factor does not change during the series and that no punctured tetrahedron is degenerate; both hold for multiples of 1/256 (C128_follows_dyadic, no such hypothesis)")
c("C129","proved",nd("C129_detected_iff C129_detects C129_point C129_zero_dyadic"),"exact arithmetic; type of the point not modelled")
c("C130","proved",nd("C130_lines"),"single snapshot, which is all finalize handles; side_of(2, .) is incomplete in space-time (C125) but complete within one time step over the base mesh")
Q_="Verif.XGC."
c("C131","partial",nd("C131_get_simplex C131_every_simplex C131_unique C131_find_simplex_partial C131_poloidal C131_actual_poloidal C131_two_planes C131_one_plane C131_find_vertex"),"Violated as stated for vertices (find_simplex aborts) and with fewer than three planes (C131_two_planes, C131_one_plane); everything else is proved.")
c("C132","partial",nd("C132_duality C132_sides_partial C132_side_of_partial C132_neighbours_partial C132_neighbours_incomplete"),"Violated: get_vertex_edge_vertex misses the diagonal edges; inclusion of vertices characterises sides only with three planes or more.")
c("C133","partial",nd("C133_slice_points C133_slice_cells C133_coordinates_undefined C133_angle_zero"),"Violated: get_coords writes outside its buffer for every vertex and never sees the plane; the export is correct.")
c("C134","partial",nd("C134_actual_plane C134_virtual_plane C134_constant C134_between C134_array_pointwise C134_array C134_components C134_value C134_initialize C134_wedge_out_of_bounds"),"Proved for a full torus (iphi = 1), in exact arithmetic; violated for a wedge (iphi > 1). The field-line map and the point location are parameters.")
c("C135","proved",nd("C135_profile C135_profile_outside C135_turbulence C135_mean_zero C135_offset"),"Exact arithmetic.")
Q_="Verif.XBlob."
c("C136","partial",nd("C136_labels C136_same_label C136_dark C136_isolated C136_late_snapshot C136_step_without_snapshot C136_overflow"),"Labels of vertices that belong to a chain; one thread (the union-find is treated concurrently in C06), iphi = 1, no smoothing kernel, ids within int, next snapshot pushed before the step. Violated otherwise: an isolated bright vertex gets -1, a late snapshot is not joined.")
Q_="Verif.Cell."
c("C138","partial",nd("C138_reproduces C138_interpolates C138_gradient C138_hessian C138_hessian_wrong_type C138_barycentric C138_forms_agree C138_barycentric_gradient"),"All but the Hessian, whose diagonal is proved to be half of the second derivative (C138_hessian); a minimum can be classified as a saddle.")
Q_="Verif.PV."
c("C139","proved",nd("C139_triangle_sound C139_triangle_complete C139_edge_sound C139_edge_complete"),"Exact arithmetic; the cubic / quadratic root finder and the condition number are parameters, assumed sound resp. to return the root in question.")
c("C140","partial",nd("C140_sound_partial C140_false_solution C140_missed_solution"),"Violated: the third component is not checked and solutions are missed unless two eliminants are parallel; the sound case is proved.")
c("C141","proved",nd("C141_tetrahedron C141_tetrahedron_degenerate C141_triangle C141_constant"),"Exact arithmetic.")
c("C142","partial",nd("C142_bilinear_sound C142_bilinear_complete_partial C142_bilinear_missed C142_eigen_sound C142_eigen_complete C142_trilinear_sound C142_trilinear_complete_partial C142_trilinear_missed C142_trilinear_nan"),"Sound; complete outside degenerate pencils. Violated for affine fields (zeros missed) and NaN zeros reported for a zero-free field.")
Q_="Verif.Cell."
c("C143","partial",nd("C143_degree C143_vertex"),"The number returned is minus the index (C143_degree); at a zero at a vertex it does not depend on the field.")
c("C144","proved",nd("C144_weights C144_corner C144_undefined"),"Exact arithmetic with an exact square root; at most ten vertices: the buffer overflows beyond (C144_undefined).")
Q_="Verif.Thresh."
c("C137","partial",nd("C137_tracks C137_defined_iff C137_other_dimensions"),"Full statement for frames with fewer than m n / 2 corners; C137_defined_iff: exactly then the labelling stays within its buffer. One node of the graph only for regions that overlap another (as in C60). No NaN.")
Q_="Verif.Deg."
c("C145","partial",nd("C145_regular C145_unstructured C145_interval C145_inconsistent"),"Proved for each tracker, but the numbering is opposite: type 1 is index -1 on grids and +1 on counter-clockwise triangulations (C145_inconsistent); clockwise input flips it.")
Q_="Verif.NdS."
c("C146","partial",nd("C146_calls C146_processing C146_temporal_partial C146_clamped C146_clamped_temporal_partial"),"Complete without temporal smoothing; with it, for odd kernels not longer than the series (C44 has the counterexamples).")
c("C147","partial",nd("C147_order C147_no_deadlock C147_terminates C147_all_delivered_partial C147_nothing_delivered C147_zero_steps_hang C147_spurious C147_frame_lost"),"Order, at-most-once, absence of deadlock (at least one step) and termination proved for all schedules without spurious wake-ups. Full delivery fails: C147_nothing_delivered, C147_frame_lost; it holds when every frame is published while the consumer waits. With spurious wake-ups at-most-once fails too (C147_spurious).")
c("C148","proved",nd("C148_locate C148_all_records C148_steps C148_read1 C148_read2 C148_read3 C148_file_per_step C148_beyond C148_fixed_time_dimension"),"The NetCDF library is modelled by its documented hyperslab semantics. Blocks of more than three dimensions are not covered.")
Q_="Verif.MPAS."
c("C149","partial",nd("C149_unique C149_bisection C149_agree_partial C149_brute_force_overrun"),"The agreement of the linear search fails (out of bounds) at or below the last top: C149_brute_force_overrun.")
c("C150","proved",nd("C150_spec C150_radial C150_convex C150_vertices C150_hull C150_neighbours C150_clockwise C150_empty"),"Exact arithmetic.")
c("C151","proved",nd("C151_sound C151_complete C151_voronoi C151_hint_independent C151_local C151_bad_hint C151_border_depends_on_hint"),"Hints must be below the number of cells (C151_bad_hint); on a common side the answer depends on the hint (C151_border_depends_on_hint).")
c("C152","partial",nd("C152_general C152_inverse C152_shortcut C152_agree_partial C152_shortcut_unknown C152_no_cell"),"The agreement fails for unknown identifiers other than 0: C152_shortcut_unknown.")
c("C153","proved",nd("C153_boundary C153_invalid C153_value C153_constant C153_affine"),"For centres that are not on a line; exact arithmetic.")
c("C154","partial",nd("C154_found C154_complete C154_failure C154_value C154_bounds C154_no_hint_partial C154_no_hint_first_layer C154_bad_hint"),"Complete when the hint is a layer. Without one (first evaluation) the first layer is never found: C154_no_hint_first_layer.")
c("C155","partial",nd("C155_distance C155_range C155_seeds C155_no_cell_overrun C155_grid_points C155_grid_first_partial C155_grid_compounds C155_accumulated"),"Grid of angles: proved. Seeds at grid points: only the first of a cell is right, the depths multiply up (C155_grid_compounds).")
c("C156","partial",nd("C156_steps_partial C156_no_steps C156_checkpoint"),"Holds for intervals of at least a day; shorter ones make no step: C156_no_steps.")
Q_="Verif.Fil."
c("C157","proved",nd("C157_driver C157_schedule_independent"),"The mesh is abstract with layered simplices; the cell test is an arbitrary function (its numerics are C111-C114 and C35).")
c("C158","partial",nd("C158_first_step_partial C158_next_step_data C158_last_step_undefined"),"Holds at timestep 0 only. Later timesteps use the data of the next one, the last reads a snapshot that is gone.")
c("C159","partial",nd("C159_surfaces_partial C159_irregular_dropped C159_last_interval_lost C159_not_a_surface"),"Points and joined triangles proved; four points give a closed tetrahedron, the last interval gives nothing.")
c("C160","proved",nd("C160_archive"),"The binary format itself is C38.")
c("C161","partial",nd("C161_seam_partial C161_two_planes"),"Three or more planes; wrong with two.")
c("C162","partial",nd("C162_result C162_extent C162_smoothing C162_keeps_partial C162_short_run_lost"),"Everything but the last clause; a run of two maxima after another type is lost: C162_short_run_lost.")
c("C163","proved",nd("C163_velocity"),"")
Q_="Verif.Synth."
c("C164","proved",nd("C164_gradient C164_rotation C164_critical_points C164_part C164_grid C164_capped"),"Real arithmetic for floating point; sizes of at least 2 for the spans.")
c("C165","proved",nd("C165_stream_function C165_divergence C165_boundary C165_grid"),"Real arithmetic for floating point.")
c("C166","proved",nd("C166_abc C166_grid"),"Real arithmetic for floating point.")
c("C167","partial",nd("C167_minimum_partial C167_distance C167_motion C167_gradient_wrong"),"All but the last clause; the generated gradient is minus half of the gradient: C167_gradient_wrong.")
c("C168","proved",nd("C168_ramps C168_volcano C168_merger"),"Real arithmetic for floating point.")
Q_="Verif.APtr."
c("C169","partial",nd("C169_safe_partial C169_exact C169_turns C169_assign_leaks C169_self_assign_leaks C169_null_copy_undefined C169_default_leaks C169_race"),"Safety proved without null wrappers and with fewer than 2^31 operations, exact lifetime without assignment, schedules without interruption between decrement and test; the rest is violated (witnesses).")
Q_="Verif.Comm."
c("C170","partial",nd("C170_bcast_partial C170_scatter_partial C170_bcast_merges_maps C170_scatter_needs_values_everywhere"),"Proved for values that may be loaded over (all flat types and vectors; empty maps) and for scatter with the right number of values on every rank; maps that are not empty keep extra entries, and scatter asserts on ranks that pass nothing.")
Q_="Verif.Str."
c("C171","partial",nd("C171_starts_with C171_ends_with C171_split C171_split_trailing C171_options C171_unknown_option C171_duration_pruning_ignored"),"All but duration_pruning, which is accepted and ignored. The regular expression engine is modelled for the one separator the code uses.")
c("C172","partial",nd("C172_output_partial C172_extension C172_given_format C172_polydata C172_remove_extension C172_no_dot_needed C172_pvtp_never C172_binary_overridden C172_remove_extension_directory"),"Proved for recognised suffixes; violated for pvtp output, explicit binary output, names without a dot and dots in directories.")
c("C173","partial",nd("C173_order_partial C173_names_differ C173_pieces_differ C173_order_beyond_width"),"Names always differ; the order holds while timesteps fit the width. Patterns with one %d or %0wd conversion.")
Q_="Verif.XG2."
c("C174","partial",nd("C174_region C174_new_mesh_partial C174_no_nextnodes C174_stale_node_map C174_field_without_flux"),"The region is exact when nextnodes was computed before; the new mesh is exact for an empty node_map. Otherwise accesses out of bounds or stale entries (witnesses).")
c("C175","partial",nd("C175_eval_outside C175_eval_affine C175_eval_vertex C175_reaches_angle C175_no_steps C175_outside_fails C175_constant_slope C175_eq_angle C175_eq_plane_partial C175_total_planes_partial C175_total_seam C175_nextnode C175_nearest"),"Interpolation, angle reached, exactness for constant slopes, next node are proved; eval_L leaves the angle velocity uninitialised and the traced line ends at plane 0 instead of at 2 pi (witnesses). Exact arithmetic.")
c("C177","partial",nd("C177_unit_field C177_unit_zero C177_curl_formula C177_curl_partial C177_curl_wrong C177_delta_formula C177_delta_B C177_delta_B_partial C177_delta_B_sign_wrong C177_total_B"),"Unit and total fields proved; curl and perturbed field are proved to be what the code computes and to differ from the intended ones (lost derivatives, sign). Exact arithmetic.")
Q_="Verif.Smooth."
c("C176","partial",nd("C176_scalar_gradient C176_affine_exact C176_vector_gradient_partial C176_vector_affine C176_vector_gradient_wrong C176_affine_jacobian"),"Scalar gradients exact; the second derivative of vector gradients is overwritten (witness for every mesh). Exact arithmetic.")
c("C178","proved",nd("C178_kernel"),"With the kernels empty before; the statement covers kernels already there (entries are appended).")
c("C179","partial",nd("C179_sums C179_smooth_scalar C179_derivatives_partial C179_gradient_sign_wrong C179_not_normalised"),"The Jacobian is the Hessian of the smoothed field, the gradient its negative; weights are not normalised (witnesses).")
Q_="Verif.XStr."
c("C180","partial",nd("C180_units_partial C180_unknown_name C180_members_not_read C180_no_semicolon C180_blank_line"),"Files of assignments of known names with a semicolon; otherwise a silent stop, a lost digit or undefined behaviour (witnesses). std::stod is a parameter.")
c("C181","partial",nd("C181_probe_partial C181_indented_comment C181_no_value"),"All files without indented comments containing an equality sign and without empty values (for those: undefined behaviour). std::stod is a parameter.")
c("C182","partial",nd("C182_step C182_available C182_step_suffix C182_delivers_partial C182_from_zero C182_default_start_wrong C182_missing_file C182_no_files C182_mpas C182_mpas_beyond"),"Exact when start and number lie within the files; with the default start 1 the first file is skipped and the list of files is overrun (witness). The contents of the files are not modelled.")
Q_="Verif.Tube."
c("C183","proved",nd("C183_counts C183_short C183_no_patches C183_colors_needed C183_triangles C183_in_range C183_oriented C183_closed"),"All curves; integers do not overflow.")
c("C184","partial",nd("C184_ring_partial C184_distance_partial C184_finite_partial C184_repeated_point C184_right_angle"),"Regular polygons whenever the vertices are numbers; they are if consecutive points differ and no two consecutive segments are perpendicular; witnesses of NaN otherwise. Exact real arithmetic.")
c("C185","partial",nd("C185_color_partial C185_first_ring C185_first_color_unused"),"All rings but the first, which carries the colour of the second point (witness).")
Q_="Verif.Hash."
c("C186","proved",nd("C186_block C186_tail C186_seed C186_collision"),"All keys and seeds.")
c("C187","partial",nd("C187_sigma_partial C187_planes_partial C187_one_mesh_partial C187_sigma_double C187_coordinates_ignored C187_equilibrium_ignored"),"True for one mesh and float sigmas in a directory of its own; false for another mesh with the same triangles (witness), and not excluded for double sigmas.")
Q_="Verif.ExM."
c("C188","partial",nd("C188_cells_partial C188_periodic_partial C188_injective_partial C188_all_partial C188_upper_partial C188_negative"),"Proved for all periods from 0 on and all ids that are not negative multiples of n(d); those are decoded outside the period (proved).")
c("C189","partial",nd("C189_sides_missing C189_sideof_partial C189_first_period_partial C189_violated"),"sides is always empty; side_of is characterised for all ids k >= 0 and is right only for triangles of period 0 whose id agrees with that in the tetrahedral mesh; witnesses of wrong answers.")
Q_="Verif.NcW."
c("C190","partial",nd("C190_accepted_partial C190_kept C190_defaults C190_violated"),"All configurations; the missing variable is not noticed because of the misspelt key foramt (witness: the data are silently lost).")
c("C191","partial",nd("C191_header_partial C191_read_back_partial C191_element_partial C191_series_partial C191_round_trip_partial C191_components_violated"),"For arrays with as many dimensions as the configuration names and one variable; several variables all get the same data (witness). The NetCDF library itself is modelled by the documented meaning of nc_put_vara and nc_get_vara.")
c("C192","partial",nd("C192_dims C192_default_dims_1d C192_output_reads_outside C192_output_partial"),"Characterised exactly: the diagnostic output reads outside the vectors for every array with fewer than four dimensions (three with unlimited time).")
c("C193","partial",nd("C193_first_partial C193_once_partial C193_violated"),"Each key keeps the array set first; right if every key is set once.")
Q_="Verif.Smooth3."
c("C194","proved",nd("C194_kernel"),"All legal meshes, coordinates and sigma; exact reals.  The old content of the kernel is kept in front of the new one.")
c("C195","partial",nd("C195_sums C195_derivatives_partial C195_gradient_sign_wrong C195_not_normalised"),"Scalar and Hessian right for fresh arrays; the gradient has the wrong sign (witness), weights are not normalised, and the outputs are added to what the arrays contained.")
Q_="Verif.FF."
c("C196","partial",nd("C196_tetrahedra C196_distinct_partial C196_two_planes_violated C196_one_plane_violated"),"Placement proved for at least two planes, distinctness for at least three; both fail below (witnesses).")
c("C197","partial",nd("C197_init_partial C197_init_violated C197_find_violated C197_other_dimensions_violated"),"The code is unfinished: creating dereferences a null pointer, nothing is ever found, lower-dimensional simplices are missing.")
Q_="Verif.MatOps."
c("C198","proved",nd("C198_product C198_matrix3x4_matrix4x2 C198_vectors C198_small_products C198_transpose_in_place C198_transposes C198_traces C198_parts C198_make_symmetric2"),"Over any commutative ring (field for the parts); exact arithmetic; outputs distinct from inputs unless in place.")
c("C199","partial",nd("C199_product C199_matrix3x4_matrix4x2_violated"),"Exactly the outputs that are too small are overrun; matrix3x4_matrix4x2_multiplication declares one that is too small.")
c("C200","proved",nd("C200_versions C200_bilinear C200_trilinear C200_bounds"),"Over any (ordered) field.")
Q_="Verif.Vtu."
c("C201","partial",nd("C201_tetrahedra C201_triangles_partial C201_orientation_violated"),"Full for tetrahedral meshes; triangle meshes lose the orientation of their triangles.  Coordinates are rounded to the precision of vtkPoints (a parameter of the model).")
c("C202","partial",nd("C202_cells_partial C202_fresh C202_lookup_violated C202_crash_violated"),"Cells and their neighbours are right; lookups answer from the old mesh, and with fewer points the code writes outside its vectors (witnesses).")
Q_="Verif.RatIneq."
c("C203","proved",nd("C203_critical C203_poles"),"For the recorded multiplicities: of several roots in one cell the last one's is recorded.")
c("C204","partial",nd("C204_cubic_partial C204_quadratic_partial C205_close_roots"),"For root lists that contain all real roots, pairwise in different cells, and a denominator not below the tolerance at grid points; false for roots in the same cell (witness).  Exact arithmetic; the root finders are C67.")
c("C205","partial",nd("C205_cubic_zero C205_quadratic_out_of_bounds C205_pole_in_result"),"Full for the cubic solver's degenerate cases; the quadratic solver reads past its array exactly for a zero denominator, and poles can be in the result (witnesses).")
Q_="Verif.Color."
c("C206","proved",nd("C206_hsi C206_range C206_exact"),"Exact real arithmetic; PI (not defined by zcolor.h itself) stands for π.")
c("C207","partial",nd("C207_table_partial C207_random C207_one_colour C207_first_is_last"),"Full for the size, the range and the rearrangement when the number of colours is not 1; one colour converts NaN, and the first and last colours of every table are equal (both proved).")
Q_="Verif.Filter."
c("C208","partial",nd("C208_devices C208_throws C208_names C208_threads"),"Full for devices and names; the number of threads is at least one exactly when the machine reports a number of hardware threads or there are several processes: otherwise it is 0, and parallel_for never ends (C07_zero_threads_never_finishes).")
#@END
names = set()
for f in glob.glob(R + "/lean/Verif/**/*.lean", recursive=True):
    ns = []
    for line in open(f):
        m = re.match(r"\s*namespace (\S+)", line)
        if m: ns.append(m.group(1)); continue
        m = re.match(r"\s*end (\S+)\s*$", line)
        if m and ns and ns[-1] == m.group(1): ns.pop(); continue
        m = re.match(r"(?:@\[[^\]]*\]\s*)?(?:protected |private )?theorem ([^\s:({\[]+)", line)
        if m: names.add(".".join(ns + [m.group(1)]))
for x in C:
    for t in x["theorems"]:
        assert t in names, t
props = [json.loads(l)["id"] for l in open(R + "/properties.jsonl")]
have = {x["property"] for x in C}
print("claims", len(C), "missing", [p for p in props if p not in have])
json.dump({"claims": C}, open(R + "/MANIFEST.json", "w"), indent=1)
