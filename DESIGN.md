# A Lean 4 model of hguo/ftk

## 1 Approach

The code (C++ headers under `/repo/include/ftk`) is read as text and modelled, function by
function, as total computable Lean functions over `Nat`, `Int`, `Rat`, `List` and plain
structures (real-number code: noncomputable functions over `ℝ`).  Mutation becomes returning the
new state, loops become folds / structural recursion / fuelled recursion with a proof that the
fuel is enough (that proof *is* the termination argument).  Undefined behaviour (dereferencing
`end()`, out-of-bounds access, uninitialised reads) and fatal errors are a distinct outcome
(`none`), never assumed away: a theorem about a result first shows there is one.

Each area has its own directory `lean/Verif/<Area>/`:

* `Model.lean`  – the model; every definition cites the file and lines it models;
* `Spec.lean`   – the independent specification (where Mathlib has no ready notion);
* `Lemmas.lean` (and others) – helper lemmas;
* `Props.lean`  – the property theorems `Cnn_...`, with `example`s beside them showing that a
  concrete, non-trivial case meets the hypotheses.

If the code violates the English property, the negation is proved with a concrete witness and
the part that holds is proved (`..._partial` where the theorem is a restriction of the property);
section 5 lists every such finding.

`tools/gen_properties.py` and `tools/gen_manifest.py` write `properties.jsonl` and
`MANIFEST.json`; `tools/mutate.py` runs seeded bugs (results in `seeded/LOG.jsonl`);
`tools/lint_docs.py` checks that every definition carries a comment; `tools/gen_axioms.py`
rewrites the axiom table in section 2.

## 2 Trusted base

* Lean 4.33.0's kernel; Mathlib modules imported one at a time (checked by the same kernel).
  No axioms are added, nothing is admitted, no compiled evaluation is trusted
  (`decide`/`decide +kernel` are evaluated by the kernel and occur only in concrete examples and
  counterexample witnesses).
* Axioms: every theorem depends on a subset of `propext`, `Classical.choice`, `Quot.sound`; table below.
* The reading of the C++ code: the model is hand written; nothing is extracted.
* C++ semantic simplifications, stated per definition; global ones:
  - integers are unbounded unless the property is about overflow (notable `int` truncations in the
    code are listed in section 5 as unmodelled findings);
  - floating point is modelled by exact ordered fields / rationals / reals (no rounding; NaN only
    where a theorem says so);
  - `std::map`/`std::set` are finite maps/sets with iteration in key order; hash containers iterate
    in an arbitrary order (the order is a universally quantified parameter);
  - `std::nth_element`, METIS, hash functions and MPI delivery orders are universally quantified
    parameters with their contract as hypothesis;
  - MPI collectives are modelled at byte level where the property is about them (C45, C46, C55);
    threads as interleavings of atomic steps (C06) or of whole tasks (C07, C47).

<!-- AXIOMS -->
| property | theorems (axioms: p = propext, c = Classical.choice, q = Quot.sound, - = none) |
|---|---|
| C01 (proved) | **pcq**: `UF.C01_same_set_iff_connected`, `UF.C01_find_absent_is_undefined` |
| C02 (proved) | **pcq**: `UF.C02_find_canonical_and_pure` |
| C03 (proved) | **pcq**: `UF.C03_get_sets_partition` |
| C04 (proved) | **pcq**: `UF.C04_simple_same_set_iff_connected`, `UF.C04_out_of_range_is_undefined` |
| C05 (proved) | **pcq**: `UF.C05_duf_find_is_least_connected`, `UF.C05_duf_order_independent`, `UF.C05_duf_get_roots` |
| C06 (partial) | **pcq**: `UF.C06_concurrent_unite_sound_partial`, `UF.C06_concurrent_unite_complete_partial`, `UF.C06_concurrent_unite_loses_update` |
| C07 (proved) | **pcq**: `Par.C07_parallel_for_at_most_once`, `Par.C07_parallel_for_exactly_once`, `Par.C07_parallel_for_terminates`, `Par.C07_container_exactly_once`; **pq**: `Par.C07_zero_threads_never_finishes` |
| C08 (proved) | **pcq**: `Lat.C08_lattice_index_bijection`, `Lat.C08_contains_iff_inBox` |
| C09 (proved) | **pcq**: `Lat.C09_partition_tiles`, `Lat.C09_partition_defined`, `Lat.C09_partition_succeeds`; **p**: `Lat.C09_short_given_is_undefined` |
| C10 (proved) | **pcq**: `Lat.C10_extent_exact`, `Lat.C10_extent_contains_core`; **p**: `Lat.C10_no_ghost` |
| C100 (proved) | **pcq**: `Swirl.C100_swirl`, `Swirl.disc_eigenvalue` |
| C101 (partial) | **pcq**: `Swirl.C101_levy_degani_seginer_partial`, `Swirl.C101_vortmag_zero` |
| C102 (partial) | **pcq**: `Swirl.C102_parallel_partial`, `Swirl.C102_not_parallel`, `Swirl.C102_planar_none` |
| C103 (partial) | **pcq**: `Swirl.C103_any_domain`, `Swirl.C103_cli_spurious` |
| C104 (proved) | **pcq**: `Tdgl.C104_contour`, `Tdgl.C104_winding` |
| C105 (partial) | **pcq**: `Tdgl.C105_circulation`, `Tdgl.C105_flux_partial`, `Tdgl.C105_kex`, `Tdgl.C105_flux_lost`, `Tdgl.C105_flux_lost_first` |
| C106 (proved) | **pcq**: `Tdgl.C106_branches`, `Tdgl.C106_gauge`, `Tdgl.C106_place` |
| C107 (proved) | **pcq**: `Tdgl.C107_detects` |
| C108 (partial) | **pcq**: `Tdgl.C108_conserved`, `Tdgl.C108_even`, `Tdgl.C108_two`, `Tdgl.C108_tie`, `Tdgl.C108_four` |
| C109 (partial) | **pcq**: `Tdgl.C109_located_partial`, `Tdgl.C109_found`, `Tdgl.C109_outside` |
| C11 (proved) | **pcq**: `Lat.C11_prime_factorization`; **p**: `Lat.C11_zero_does_not_terminate` |
| C110 (partial) | **pcq**: `Tdgl.C110_ring`, `Tdgl.C110_surface_partial`, `Tdgl.C110_free` |
| C111 (proved) | **pcq**: `PT.C111_series`, `PT.C111_single`, `PT.C111_schedule`; **pq**: `PT.C111_checkpoint_ignored` |
| C112 (proved) | **pcq**: `PT.C112_interval`, `PT.C112_series`, `PT.C112_times_sorted` |
| C113 (partial) | **pcq**: `PT.C113_complete_or_outside_partial`, `PT.C113_stuck_outside`, `PT.C113_recorded_outside` |
| C114 (proved) | **pcq**: `PT.C114_interval`, `PT.C114_series` |
| C115 (partial) | **pcq**: `PT.C112_series`, `PT.C115_small_delta_t`, `PT.C115_large_delta_t`, `PT.C115_seed_between_steps` |
| C116 (proved) | **pcq**: `PT.C116_affine` |
| C117 (proved) | **pcq**: `PT.C117_seeds`, `PT.C117_seeds_inside`; **pq**: `PT.C117_given` |
| C118 (partial) | **pcq**: `PT.C114_interval`, `PT.C118_velocity_lags` |
| C119 (partial) | **pcq**: `Ineq.C119_linear_partial`, `Ineq.C119_tiny_slope` |
| C12 (proved) | **pcq**: `SRM.C12_from_to`, `SRM.C12_to_from`, `SRM.C12_to_integer_injective`, `SRM.C12_dimensions_collide` |
| C120 (partial) | **pcq**: `Ineq.C120_cubic_partial`, `Ineq.C120_cubic_sound`, `Ineq.C120_isolated_zero`, `Ineq.C120_undefined` |
| C121 (proved) | **pcq**: `Ineq.C121_evaluate_rational`, `Ineq.C121_evaluate_rational_infinity`, `Ineq.C121_zero_denominator` |
| C122 (partial) | **pcq**: `U3.C122_build_partial`, `U3.C122_cells`, `U3.C122_find`, `U3.C122_order`, `U3.C122_side_of`, `U3.C122_side_of_vertex`, `U3.C122_vertex_neighbours`; **p**: `U3.C122_constructor_unusable`; **-**: `U3.C122_sides_missing` |
| C123 (partial) | **pcq**: `X3.C123_get_simplex_partial`, `X3.C123_every_simplex_partial`, `X3.C123_pentachoron_wrong`, `X3.C123_pentachoron_unreachable`, `X3.C123_enumeration_partial`, `X3.C123_enumeration_pentachora`, `X3.C123_interval_wrong`, `X3.C123_ordinal`, `X3.C123_vertex`; **p**: `X3.C123_negative_multiple` |
| C124 (proved) | **pcq**: `X3.C124_numbering`, `X3.C124_duality`, `X3.C124_two_cofaces` |
| C125 (partial) | **pcq**: `X3.C125_sides`, `X3.C125_side_of_partial`, `X3.C125_side_of_vertical`; **pq**: `X3.C125_side_of_incomplete` |
| C126 (partial) | **pcq**: `X3T.C126_detected_iff`, `X3T.C126_exactly_once`, `X3T.C126_driver`, `X3T.C126_schedule_independent`, `X3T.C126_punctured_partial`, `X3T.C126_punctured`, `X3T.C126_push_lost` |
| C127 (partial) | **pcq**: `X3T.C127_weights_partial`, `X3T.C127_position_partial`, `X3T.C127_exact`, `X3T.C127_weights_wrong`, `X3T.C127_position_wrong` |
| C128 (partial) | **pcq**: `X3T.C128_follows_partial`, `X3T.C128_follows_dyadic` |
| C129 (proved) | **pcq**: `X3T.C129_detected_iff`, `X3T.C129_detects`, `X3T.C129_point`, `X3T.C129_zero_dyadic` |
| C13 (proved) | **pcq**: `SRM.C13_element_for_exactly_once`, `SRM.C13_element_for_ordinal`, `SRM.C13_element_for_interval`, `SRM.C13_to_work_index_forgets_type` |
| C130 (proved) | **pcq**: `X3T.C130_lines` |
| C131 (partial) | **pcq**: `XGC.C131_get_simplex`, `XGC.C131_every_simplex`, `XGC.C131_unique`, `XGC.C131_find_simplex_partial`, `XGC.C131_poloidal`, `XGC.C131_actual_poloidal`; **pq**: `XGC.C131_two_planes`, `XGC.C131_find_vertex`; **p**: `XGC.C131_one_plane` |
| C132 (partial) | **pcq**: `XGC.C132_duality`, `XGC.C132_sides_partial`, `XGC.C132_side_of_partial`, `XGC.C132_neighbours_partial`; **p**: `XGC.C132_neighbours_incomplete` |
| C133 (partial) | **pq**: `XGC.C133_slice_points`; **pcq**: `XGC.C133_slice_cells`, `XGC.C133_coordinates_undefined`, `XGC.C133_angle_zero` |
| C134 (partial) | **pq**: `XGC.C134_actual_plane`; **pcq**: `XGC.C134_virtual_plane`, `XGC.C134_constant`, `XGC.C134_between`, `XGC.C134_array_pointwise`, `XGC.C134_array`, `XGC.C134_components`, `XGC.C134_value`, `XGC.C134_initialize`, `XGC.C134_wedge_out_of_bounds` |
| C135 (proved) | **pcq**: `XGC.C135_profile`, `XGC.C135_profile_outside`, `XGC.C135_mean_zero`, `XGC.C135_offset`; **pq**: `XGC.C135_turbulence` |
| C136 (partial) | **pcq**: `XBlob.C136_labels`, `XBlob.C136_same_label`, `XBlob.C136_dark`, `XBlob.C136_isolated`, `XBlob.C136_late_snapshot`, `XBlob.C136_step_without_snapshot`; **-**: `XBlob.C136_overflow` |
| C137 (partial) | **pcq**: `Thresh.C137_tracks`, `Thresh.C137_defined_iff`; **p**: `Thresh.C137_other_dimensions` |
| C138 (partial) | **pcq**: `Cell.C138_reproduces`, `Cell.C138_interpolates`, `Cell.C138_gradient`, `Cell.C138_hessian`, `Cell.C138_hessian_wrong_type`, `Cell.C138_barycentric`, `Cell.C138_forms_agree`, `Cell.C138_barycentric_gradient` |
| C139 (proved) | **pcq**: `PV.C139_triangle_sound`, `PV.C139_triangle_complete`, `PV.C139_edge_sound`, `PV.C139_edge_complete` |
| C14 (proved) | **pcq**: `SRM.C14_sides`, `SRM.C14_side_of`, `SRM.C14_sides_side_of_dual`, `SRM.C14_extreme_dimensions`, `SRM.C14_facet_has_two_cofaces` |
| C140 (partial) | **pcq**: `PV.C140_sound_partial`, `PV.C140_false_solution`, `PV.C140_missed_solution` |
| C141 (proved) | **pcq**: `PV.C141_tetrahedron`, `PV.C141_tetrahedron_degenerate`, `PV.C141_triangle`, `PV.C141_constant` |
| C142 (partial) | **pcq**: `PV.C142_bilinear_sound`, `PV.C142_bilinear_complete_partial`, `PV.C142_bilinear_missed`, `PV.C142_eigen_sound`, `PV.C142_eigen_complete`, `PV.C142_trilinear_sound`, `PV.C142_trilinear_complete_partial`, `PV.C142_trilinear_missed`, `PV.C142_trilinear_nan` |
| C143 (partial) | **pcq**: `Cell.C143_degree`, `Cell.C143_vertex` |
| C144 (proved) | **pcq**: `Cell.C144_weights`, `Cell.C144_corner`; **pq**: `Cell.C144_undefined` |
| C145 (partial) | **pcq**: `Deg.C145_regular`, `Deg.C145_unstructured`; **pq**: `Deg.C145_interval`, `Deg.C145_inconsistent` |
| C146 (partial) | **pq**: `NdS.C146_calls`, `NdS.C146_clamped`; **p**: `NdS.C146_processing`; **pcq**: `NdS.C146_temporal_partial`, `NdS.C146_clamped_temporal_partial` |
| C147 (partial) | **pcq**: `NdS.C147_order`, `NdS.C147_no_deadlock`, `NdS.C147_terminates`, `NdS.C147_all_delivered_partial`, `NdS.C147_frame_lost`; **pq**: `NdS.C147_nothing_delivered`; **p**: `NdS.C147_zero_steps_hang`, `NdS.C147_spurious` |
| C148 (proved) | **pq**: `NdS.C148_locate`, `NdS.C148_all_records`, `NdS.C148_beyond`, `NdS.C148_fixed_time_dimension`; **pcq**: `NdS.C148_steps`, `NdS.C148_read1`, `NdS.C148_read2`, `NdS.C148_read3`, `NdS.C148_file_per_step` |
| C149 (partial) | **pq**: `MPAS.C149_unique`, `MPAS.C149_brute_force_overrun`; **pcq**: `MPAS.C149_bisection`, `MPAS.C149_agree_partial` |
| C15 (proved) | **pcq**: `SRM.C15_subdivision_is_kuhn`, `SRM.C15_unit_simplices` |
| C150 (proved) | **pcq**: `MPAS.C150_spec`, `MPAS.C150_radial`, `MPAS.C150_convex`, `MPAS.C150_vertices`, `MPAS.C150_hull`, `MPAS.C150_neighbours`, `MPAS.C150_clockwise`; **pq**: `MPAS.C150_empty` |
| C151 (proved) | **pcq**: `MPAS.C151_sound`, `MPAS.C151_complete`, `MPAS.C151_voronoi`, `MPAS.C151_hint_independent`, `MPAS.C151_local`, `MPAS.C151_border_depends_on_hint`; **pq**: `MPAS.C151_bad_hint` |
| C152 (partial) | **pq**: `MPAS.C152_general`, `MPAS.C152_inverse`, `MPAS.C152_shortcut`, `MPAS.C152_agree_partial`, `MPAS.C152_shortcut_unknown`, `MPAS.C152_no_cell` |
| C153 (proved) | **pcq**: `MPAS.C153_boundary`, `MPAS.C153_invalid`, `MPAS.C153_value`, `MPAS.C153_constant`, `MPAS.C153_affine` |
| C154 (partial) | **pq**: `MPAS.C154_found`, `MPAS.C154_no_hint_partial`, `MPAS.C154_no_hint_first_layer`, `MPAS.C154_bad_hint`; **pcq**: `MPAS.C154_complete`, `MPAS.C154_failure`, `MPAS.C154_value`, `MPAS.C154_bounds` |
| C155 (partial) | **pq**: `MPAS.C155_distance`, `MPAS.C155_no_cell_overrun`, `MPAS.C155_grid_first_partial`; **pcq**: `MPAS.C155_range`, `MPAS.C155_seeds`, `MPAS.C155_grid_points`, `MPAS.C155_grid_compounds`, `MPAS.C155_accumulated` |
| C156 (partial) | **pcq**: `MPAS.C156_steps_partial`; **pq**: `MPAS.C156_no_steps`; **p**: `MPAS.C156_checkpoint` |
| C157 (proved) | **pcq**: `Fil.C157_driver`, `Fil.C157_schedule_independent` |
| C158 (partial) | **pcq**: `Fil.C158_first_step_partial`; **pq**: `Fil.C158_next_step_data`, `Fil.C158_last_step_undefined` |
| C159 (partial) | **pcq**: `Fil.C159_surfaces_partial`, `Fil.C159_irregular_dropped`, `Fil.C159_last_interval_lost`; **pq**: `Fil.C159_not_a_surface` |
| C16 (proved) | **pcq**: `SRM.C16_ordinal_interval_partition`, `SRM.C16_times` |
| C160 (proved) | **pcq**: `Fil.C160_archive` |
| C161 (partial) | **pcq**: `Fil.C161_seam_partial`; **-**: `Fil.C161_two_planes` |
| C162 (partial) | **pcq**: `Fil.C162_result`, `Fil.C162_extent`, `Fil.C162_smoothing`, `Fil.C162_keeps_partial`, `Fil.C162_short_run_lost` |
| C163 (proved) | **pcq**: `Fil.C163_velocity` |
| C164 (proved) | **pcq**: `Synth.C164_gradient`, `Synth.C164_rotation`, `Synth.C164_critical_points`, `Synth.C164_part`, `Synth.C164_grid`, `Synth.C164_capped` |
| C165 (proved) | **pcq**: `Synth.C165_stream_function`, `Synth.C165_divergence`, `Synth.C165_boundary`, `Synth.C165_grid` |
| C166 (proved) | **pcq**: `Synth.C166_abc`, `Synth.C166_grid` |
| C167 (partial) | **pcq**: `Synth.C167_minimum_partial`, `Synth.C167_distance`, `Synth.C167_gradient_wrong`; **pq**: `Synth.C167_motion` |
| C168 (proved) | **pcq**: `Synth.C168_ramps`, `Synth.C168_volcano`, `Synth.C168_merger` |
| C169 (partial) | **pcq**: `APtr.C169_safe_partial`, `APtr.C169_exact`, `APtr.C169_turns`; **p**: `APtr.C169_assign_leaks`, `APtr.C169_self_assign_leaks`, `APtr.C169_null_copy_undefined`, `APtr.C169_default_leaks`, `APtr.C169_race` |
| C17 (proved) | **pcq**: `Gr.C17_bfs_visits_reachable` |
| C170 (partial) | **pcq**: `Comm.C170_bcast_partial`, `Comm.C170_scatter_partial`; **p**: `Comm.C170_bcast_merges_maps`, `Comm.C170_scatter_needs_values_everywhere` |
| C171 (partial) | **pq**: `Str.C171_starts_with`, `Str.C171_ends_with`; **p**: `Str.C171_split`, `Str.C171_split_trailing`; **pcq**: `Str.C171_options`, `Str.C171_unknown_option`, `Str.C171_duration_pruning_ignored` |
| C172 (partial) | **pcq**: `Str.C172_output_partial`, `Str.C172_extension`, `Str.C172_given_format`, `Str.C172_polydata`, `Str.C172_remove_extension`, `Str.C172_no_dot_needed`, `Str.C172_pvtp_never`, `Str.C172_binary_overridden`, `Str.C172_remove_extension_directory` |
| C173 (partial) | **pcq**: `Str.C173_order_partial`, `Str.C173_names_differ`, `Str.C173_pieces_differ`, `Str.C173_order_beyond_width` |
| C174 (partial) | **pcq**: `XG2.C174_region`, `XG2.C174_new_mesh_partial`, `XG2.C174_no_nextnodes`; **pq**: `XG2.C174_stale_node_map`, `XG2.C174_field_without_flux` |
| C175 (partial) | **pq**: `XG2.C175_eval_outside`, `XG2.C175_eval_affine`, `XG2.C175_eval_vertex`, `XG2.C175_no_steps`, `XG2.C175_outside_fails`, `XG2.C175_eq_plane_partial`, `XG2.C175_nearest`; **pcq**: `XG2.C175_reaches_angle`, `XG2.C175_constant_slope`, `XG2.C175_eq_angle`, `XG2.C175_total_planes_partial`, `XG2.C175_total_seam`, `XG2.C175_nextnode` |
| C176 (partial) | **pcq**: `Smooth.C176_scalar_gradient`, `Smooth.C176_affine_exact`, `Smooth.C176_vector_gradient_partial`, `Smooth.C176_vector_affine`, `Smooth.C176_vector_gradient_wrong`, `Smooth.C176_affine_jacobian` |
| C177 (partial) | **pcq**: `XG2.C177_unit_field`, `XG2.C177_unit_zero`, `XG2.C177_curl_formula`, `XG2.C177_curl_partial`, `XG2.C177_curl_wrong`, `XG2.C177_delta_formula`, `XG2.C177_delta_B`, `XG2.C177_delta_B_partial`, `XG2.C177_delta_B_sign_wrong`; **pq**: `XG2.C177_total_B` |
| C178 (proved) | **pcq**: `Smooth.C178_kernel` |
| C179 (partial) | **pcq**: `Smooth.C179_sums`, `Smooth.C179_smooth_scalar`, `Smooth.C179_derivatives_partial`, `Smooth.C179_gradient_sign_wrong`, `Smooth.C179_not_normalised` |
| C18 (proved) | **pcq**: `Gr.C18_components`, `Gr.C18_components_criterion`, `Gr.C18_components_nodes`, `Gr.C18_components_bfs`; **p**: `Gr.C18_bfs_needs_symmetry` |
| C180 (partial) | **pcq**: `XStr.C180_units_partial`, `XStr.C180_unknown_name`, `XStr.C180_members_not_read`, `XStr.C180_no_semicolon`, `XStr.C180_blank_line` |
| C181 (partial) | **pcq**: `XStr.C181_probe_partial`, `XStr.C181_indented_comment`, `XStr.C181_no_value` |
| C182 (partial) | **pcq**: `XStr.C182_step`, `XStr.C182_available`, `XStr.C182_step_suffix`, `XStr.C182_delivers_partial`, `XStr.C182_from_zero`, `XStr.C182_default_start_wrong`, `XStr.C182_missing_file`, `XStr.C182_no_files`; **pq**: `XStr.C182_mpas`, `XStr.C182_mpas_beyond` |
| C183 (proved) | **pcq**: `Tube.C183_counts`, `Tube.C183_short`, `Tube.C183_no_patches`, `Tube.C183_colors_needed`, `Tube.C183_triangles`, `Tube.C183_in_range`, `Tube.C183_oriented`, `Tube.C183_closed` |
| C184 (partial) | **pcq**: `Tube.C184_ring_partial`, `Tube.C184_distance_partial`, `Tube.C184_finite_partial`, `Tube.C184_repeated_point`, `Tube.C184_right_angle` |
| C185 (partial) | **pcq**: `Tube.C185_color_partial`, `Tube.C185_first_ring`, `Tube.C185_first_color_unused` |
| C186 (proved) | **pq**: `Hash.C186_block`, `Hash.C186_tail`, `Hash.C186_seed`; **pcq**: `Hash.C186_collision` |
| C187 (partial) | **pcq**: `Hash.C187_sigma_partial`, `Hash.C187_planes_partial`, `Hash.C187_one_mesh_partial`, `Hash.C187_sigma_double`, `Hash.C187_coordinates_ignored`, `Hash.C187_equilibrium_ignored` |
| C188 (partial) | **pcq**: `ExM.C188_cells_partial`, `ExM.C188_periodic_partial`, `ExM.C188_injective_partial`, `ExM.C188_all_partial`, `ExM.C188_upper_partial`, `ExM.C188_negative` |
| C189 (partial) | **p**: `ExM.C189_sides_missing`; **pcq**: `ExM.C189_sideof_partial`, `ExM.C189_first_period_partial`; **pq**: `ExM.C189_violated` |
| C19 (partial) | **pcq**: `HK.C19_labelling_partial`, `HK.C19_defined_iff`; **p**: `HK.C19_out_of_bounds_witnesses` |
| C190 (partial) | **pcq**: `NcW.C190_accepted_partial`, `NcW.C190_defaults`, `NcW.C190_violated`; **pq**: `NcW.C190_kept` |
| C191 (partial) | **pq**: `NcW.C191_header_partial`, `NcW.C191_read_back_partial`, `NcW.C191_element_partial`, `NcW.C191_round_trip_partial`, `NcW.C191_components_violated`; **pcq**: `NcW.C191_series_partial` |
| C192 (partial) | **pcq**: `NcW.C192_dims`; **p**: `NcW.C192_default_dims_1d`, `NcW.C192_output_partial`; **pq**: `NcW.C192_output_reads_outside` |
| C193 (partial) | **pcq**: `NcW.C193_first_partial`, `NcW.C193_once_partial`, `NcW.C193_violated` |
| C194 (proved) | **pcq**: `Smooth3.C194_kernel` |
| C195 (partial) | **pcq**: `Smooth3.C195_sums`, `Smooth3.C195_derivatives_partial`, `Smooth3.C195_gradient_sign_wrong`, `Smooth3.C195_not_normalised` |
| C196 (partial) | **pcq**: `FF.C196_tetrahedra`, `FF.C196_distinct_partial`, `FF.C196_two_planes_violated`, `FF.C196_one_plane_violated` |
| C197 (partial) | **p**: `FF.C197_init_partial`, `FF.C197_other_dimensions_violated`; **-**: `FF.C197_init_violated`; **pcq**: `FF.C197_find_violated` |
| C198 (proved) | **pcq**: `MatOps.C198_product`, `MatOps.C198_matrix3x4_matrix4x2`, `MatOps.C198_vectors`, `MatOps.C198_small_products`, `MatOps.C198_transpose_in_place`, `MatOps.C198_transposes`, `MatOps.C198_traces`, `MatOps.C198_parts`, `MatOps.C198_make_symmetric2` |
| C199 (partial) | **pcq**: `MatOps.C199_product`, `MatOps.C199_matrix3x4_matrix4x2_violated` |
| C20 (proved) | **pcq**: `Dij.C20_shortest_path`, `Dij.C20_unreachable_undefined` |
| C200 (proved) | **pcq**: `MatOps.C200_versions`, `MatOps.C200_bilinear`, `MatOps.C200_trilinear`, `MatOps.C200_bounds` |
| C201 (partial) | **pcq**: `Vtu.C201_tetrahedra`, `Vtu.C201_triangles_partial`, `Vtu.C201_orientation_violated` |
| C202 (partial) | **pq**: `Vtu.C202_cells_partial`, `Vtu.C202_fresh`, `Vtu.C202_lookup_violated`, `Vtu.C202_crash_violated` |
| C203 (proved) | **pcq**: `RatIneq.C203_critical`, `RatIneq.C203_poles` |
| C204 (partial) | **pcq**: `RatIneq.C204_cubic_partial`, `RatIneq.C204_quadratic_partial`, `RatIneq.C205_close_roots` |
| C205 (partial) | **pcq**: `RatIneq.C205_cubic_zero`, `RatIneq.C205_quadratic_out_of_bounds`, `RatIneq.C205_pole_in_result` |
| C206 (proved) | **pcq**: `Color.C206_hsi`, `Color.C206_range`, `Color.C206_exact` |
| C207 (partial) | **pcq**: `Color.C207_table_partial`, `Color.C207_random`, `Color.C207_one_colour`, `Color.C207_first_is_last` |
| C208 (partial) | **pq**: `Filter.C208_devices`, `Filter.C208_throws`; **pcq**: `Filter.C208_names`, `Filter.C208_threads` |
| C21 (proved) | **pcq**: `Gr.C21_linear_components`; **pq**: `Gr.C21_is_loop`; **p**: `Gr.C21_two_node_curve_is_a_loop` |
| C22 (proved) | **pcq**: `TG.C22_event_type`, `TG.C22_three_way_split_is_compound`, `TG.C22_detect_events_interval`, `TG.C22_detect_events`, `TG.C22_timesteps`, `TG.C22_detect_twice_doubles` |
| C23 (proved) | **pcq**: `Curve.C23_adjust_time` |
| C24 (partial) | **pcq**: `Curve.C24_split_partial`; **-**: `Curve.C24_split_loses_points` |
| C25 (proved) | **pcq**: `Curve.C25_intercept`; **p**: `Curve.C25_unordered_and_empty` |
| C26 (proved) | **pq**: `Curve.C26_rotate`, `Curve.C26_reorder` |
| C27 (proved) | **pq**: `Curve.C27_statistics`; **p**: `Curve.C27_empty_keeps_old` |
| C28 (proved) | **pq**: `Curve.C28_ids`, `Curve.C28_add`; **pcq**: `Curve.C28_explicit_label`; **-**: `Curve.C28_from_list_keeps_old_ids` |
| C29 (proved) | **pcq**: `SoS.C29_never_zero2`, `SoS.C29_never_zero3`, `SoS.C29_never_zero4`, `SoS.C29_positive1_pm`, `SoS.C29_positive2_pm`, `SoS.C29_positive3_pm`, `SoS.C29_perm1`, `SoS.C29_perm2`, `SoS.C29_perm3`, `SoS.C29_swap2`, `SoS.C29_swap3`, `SoS.C29_equal_indices_not_antisymmetric` |
| C30 (proved) | **pcq**: `SoS.C30_positive1`, `SoS.C30_positive2`, `SoS.C30_positive3`, `SoS.C30_exact1`, `SoS.C30_exact2`, `SoS.C30_exact3`, `SoS.C30_robust_smaller` |
| C31 (proved) | **pcq**: `SoS.C31_inside1`, `SoS.C31_inside2`, `SoS.C31_inside3`, `SoS.C31_perm1`, `SoS.C31_perm2`, `SoS.C31_perm3` |
| C32 (proved) | **pcq**: `SoS.C32_triangle`, `SoS.C32_tetrahedron`, `SoS.C32_pentatope`, `SoS.C32_critical_point_2d`, `SoS.C32_critical_point_3d` |
| C33 (proved) | **pcq**: `Num.C33_det2`, `Num.C33_det3`, `Num.C33_det4`, `Num.C33_adjugate2`, `Num.C33_adjugate3`, `Num.C33_matMul`, `Num.C33_matVec2`, `Num.C33_matVec3`, `Num.C33_mat2x3Vec3`, `Num.C33_mat2x2Mat2x2`, `Num.C33_mat2x2Mat2x3`, `Num.C33_mat2x3Mat3x2`, `Num.C33_transpose3x2`, `Num.C33_transpose4x3`, `Num.C33_inverse2`, `Num.C33_inverse3`, `Num.C33_inverse4`, `Num.C33_solve2`, `Num.C33_solve3`, `Num.C33_charPoly2`, `Num.C33_charPoly2g`, `Num.C33_charPoly3`, `Num.C33_charPoly3g`, `Num.C33_leastSquare3x2`, `Num.C33_leastSquare3x2_2`, `Num.C33_leastSquare4x3_3`, `Num.C33_cross_det`, `Num.C33_leastSquare2x1`, `Num.C33_leastSquare3x1`; **pq**: `Num.C33_cross` |
| C34 (partial) | **pq**: `Rational.C34_gcd`; **pcq**: `Rational.C34_addAssign_partial`, `Rational.C34_subAssign_partial`, `Rational.C34_mulAssign_partial`, `Rational.C34_divAssign_partial`, `Rational.C34_int_ops`, `Rational.C34_lt_partial`, `Rational.C34_ltInt`, `Rational.C34_eq_partial`, `Rational.C34_eqInt_gtInt`, `Rational.C34_normalize`, `Rational.C34_plus_wrong`, `Rational.C34_minus_wrong`, `Rational.C34_negative_denominator`, `Rational.C34_unreduced_eq` |
| C35 (partial) | **pq**: `Interval.C35_empty`, `Interval.C35_overlaps_false`, `Interval.C35_intersect`; **pcq**: `Interval.C35_contains_partial`, `Interval.C35_overlaps_true`, `Interval.C35_history_partial`, `Interval.C35_history_overlaps_partial`, `Interval.C35_contains_empty_wrong`; **p**: `Interval.C35_join_wrong`, `Interval.C35_insert_dropped` |
| C36 (partial) | **pcq**: `Poly.C36_evaluate`, `Poly.C36_addition`, `Poly.C36_subtraction_partial`, `Poly.C36_subtraction_wrong_sign`, `Poly.C36_in_place`, `Poly.C36_copy`, `Poly.C36_scalar`, `Poly.C36_derivative`, `Poly.C36_evaluate_derivative`, `Poly.C36_multiplication`, `Poly.C36_evaluate_ops`, `Poly.C36_equals_to` |
| C37 (partial) | **pcq**: `CPType.C37_eigenvalues_sym2`, `CPType.C37_type2_symmetric`, `CPType.C37_eigenvalues2`, `CPType.C37_type2_general`, `CPType.C37_eigenvalues_sym3`, `CPType.C37_type3_symmetric`, `CPType.C37_make_symmetric`, `CPType.C37_type3_general_unknown` |
| C38 (proved) | **pq**: `ND.C38_reachable`; **pcq**: `ND.C38_index_bijective`, `ND.C38_read_write`, `ND.C38_reshape`, `ND.C38_fill_vector_breaks_shape` |
| C39 (partial) | **pcq**: `ND.C39_transpose`, `ND.C39_involution`, `ND.C39_transpose_drops_flags`; **pq**: `ND.C39_transpose_5d` |
| C40 (partial) | **pcq**: `ND.C40_slice`, `ND.C40_stack`, `ND.C40_concat`, `ND.C40_slice_time`, `ND.C40_stack_slice_time`; **pq**: `ND.C40_slice_time_1d`; **p**: `ND.C40_subarray_multicomponent` |
| C41 (partial) | **pcq**: `Ser.C41_ndarray`, `Ser.C41_feature_point`, `Ser.C41_mesh_element`, `Ser.C41_feature_surface`, `Ser.C41_feature_curve_partial`, `Ser.C41_curve_loses_loop`, `Ser.C41_vector`, `Ser.C41_map`, `Ser.C41_set`, `Ser.C41_two_objects`, `Ser.C41_point_map`; **-**: `Ser.C41_map_load_merges` |
| C42 (partial) | **pq**: `ND.C42_min_max_partial`, `ND.C42_min_max_any`, `ND.C42_max_of_negative_floats`, `ND.C42_clamp`, `ND.C42_maxabs`, `ND.C42_resolution` |
| C43 (proved) | **pcq**: `ND.C43_out_of_bound`, `ND.C43_value`, `ND.C43_grid_position`, `ND.C43_between`, `ND.C43_affine`, `ND.C43_last_position` |
| C44 (partial) | **pcq**: `Stream.C44_streaming_partial`, `Stream.C44_online`; **p**: `Stream.C44_short_series`; **pq**: `Stream.C44_finish_empty` |
| C45 (proved) | **pcq**: `Comm.C45_gather_fold`, `Comm.C45_allgather_fold`, `Comm.C45_gather`, `Comm.C45_allgather`, `Comm.C45_gather_set` |
| C46 (proved) | **pcq**: `Comm.C46_redistribute`, `Comm.C46_exactly_one` |
| C47 (proved) | **pcq**: `Trk.C47_exactly_once`, `Trk.C47_driver`, `Trk.C47_processes_together`, `Trk.C47_schedule_independent`, `Trk.C47_early_advance_skips_interval`, `Trk.C47_no_snapshot_undefined`; **pq**: `Trk.C47_one_process` |
| C48 (proved) | **pcq**: `Trk.C48_online_step`, `Trk.C48_online_history`, `Trk.C48_online_nothing_lost`, `Trk.C48_streaming_tracker`, `Trk.C48_joining_trajectories_stay_split`, `Trk.C48_streaming_loses_last_timestep`, `Trk.C48_update_twice_duplicates` |
| C49 (proved) | **pcq**: `KD.C49_nearest`, `KD.C49_naive`, `KD.C49_agree`, `KD.C49_max_level`; **pq**: `KD.C49_empty` |
| C50 (proved) | **pcq**: `CT.C50_symmetric`, `CT.C50_reduce`; **pq**: `CT.C50_branching`; **p**: `CT.C50_isolated` |
| C51 (partial) | **pcq**: `XM.C51_get_simplex`, `XM.C51_every_simplex`, `XM.C51_find_simplex`, `XM.C51_find_get_partial`, `XM.C51_enumeration`, `XM.C51_ordinal`, `XM.C51_negative_vertex`; **p**: `XM.C51_negative_multiple`; **pq**: `XM.C51_find_negative`, `XM.C51_find_order` |
| C52 (partial) | **pcq**: `XM.C52_sides`, `XM.C52_side_of`, `XM.C52_duality_partial`, `XM.C52_neighbours_partial`, `XM.C52_negative_sides`; **pq**: `XM.C52_negative_side_of`; **p**: `XM.C52_neighbours_incomplete` |
| C53 (partial) | **pcq**: `FixedPoint.C53_conversion`, `FixedPoint.C53_exact`, `FixedPoint.C53_mul`, `FixedPoint.C53_compare`, `FixedPoint.C53_div_wrong` |
| C54 (proved) | **pcq**: `Num.C54_s1v1`, `Num.C54_s1v1_success`, `Num.C54_s2v2`, `Num.C54_s3v3`, `Num.C54_vertex_zero`, `Num.C54_s1v2_least_squares`, `Num.C54_s2v3`, `Num.C54_s1v2_false_positive`, `Num.C54_integer_s1v2`, `Num.C54_clampBarycentric`, `Num.C54_robust_then_solve2`, `Num.C54_robust_then_solve3`; **pq**: `Num.C54_s2v2_success`, `Num.C54_s3v3_success`, `Num.C54_clamp` |
| C55 (partial) | **pcq**: `Comm.C55_all2all_partial`, `Comm.C55_all2all_loses_data` |
| C56 (proved) | **pcq**: `SRM.C56_element_order`; **p**: `SRM.C56_order_ignores_dimension` |
| C57 (proved) | **pcq**: `Gr.C57_label_components` |
| C58 (partial) | **pq**: `Gr.C58_overlap_pairs`, `Gr.C58_label_pairs_partial`; **p**: `Gr.C58_same_label_is_dropped` |
| C59 (proved) | **pcq**: `TG.C59_relabel`; **q**: `TG.C59_one_to_one_edge_keeps_label`, `TG.C59_split_does_not_change_label` |
| C60 (proved) | **pcq**: `TG.C60_tracker_records_overlaps`, `TG.C60_isolated_feature_is_lost`, `TG.C60_undefined_uses` |
| C61 (proved) | **pcq**: `Curve.C61_smooth_ordinal_types` |
| C62 (proved) | **pcq**: `Curve.C62_smooth_interval_types` |
| C63 (proved) | **pcq**: `Curve.C63_post_process`, `Curve.C63_split_all_types`, `Curve.C63_rotate_after_discard_undefined` |
| C64 (proved) | **pcq**: `Curve.C64_derive_velocity` |
| C65 (proved) | **pcq**: `Curve.C65_unwrap` |
| C66 (proved) | **pcq**: `Curve.C66_split_geo` |
| C67 (partial) | **pcq**: `Roots.C67_quadratic_multiplicity`, `Roots.C67_cubic_multiplicity`, `Roots.C67_quadratic_partial`, `Roots.C67_quadratic_out_of_bounds`, `Roots.C67_cubic_partial`, `Roots.C67_cubic_uninitialised` |
| C68 (proved) | **pcq**: `ND.C68_add`, `ND.C68_add_assign`; **pq**: `ND.C68_from_array`; **p**: `ND.C68_add_shape_mismatch` |
| C69 (proved) | **pcq**: `UM.C69_build_defined`, `UM.C69_get_triangle`, `UM.C69_find_triangle`, `UM.C69_chirality`, `UM.C69_vertex_triangles` |
| C70 (partial) | **pcq**: `UM.C70_edges`, `UM.C70_find_edge`, `UM.C70_sides`, `UM.C70_side_of`, `UM.C70_duality`, `UM.C70_vertex_neighbours`, `UM.C70_adjacency_partial`, `UM.C70_adjacency_incomplete`; **pq**: `UM.C70_nonmanifold_corrupts`, `UM.C70_duplicates_undefined` |
| C71 (partial) | **pcq**: `UM.C71_partition_partial`, `UM.C71_exactly_one_rank`; **pq**: `UM.C71_vertices_wrong`, `UM.C71_gid2lid_wrong` |
| C72 (proved) | **pcq**: `Trk.C72_follows`, `Trk.C72_tracker_2d`, `Trk.C72_tracker_3d`, `Trk.C72_tracker_2d_dyadic`, `Trk.C72_tracker_3d_dyadic`, `Trk.C72_factor_change_breaks_curves`, `Trk.C72_nan_breaks_curves` |
| C73 (partial) | **pcq**: `Quad.C73_build`, `Quad.C73_locate_sound`, `Quad.C73_locate_complete_partial`, `Quad.C73_locate_recursive`, `Quad.C73_locate_interior`, `Quad.C73_same_centroid_diverges`, `Quad.C73_upper_boundary_missed` |
| C74 (proved) | **pcq**: `RM.C74_sides`, `RM.C74_side_of`, `RM.C74_counts`, `RM.C74_iteration` |
| C75 (proved) | **pcq**: `Ode.C75_linear`, `Ode.C75_constant`, `Ode.C75_quadrature`, `Ode.C75_success`, `Ode.C75_late_failure_moves_point`; **pq**: `Ode.C75_first_failure` |
| C76 (proved) | **pcq**: `Ode.C76_rodrigues`, `Ode.C76_keeps_norm`, `Ode.C76_fixes_axis`, `Ode.C76_zero_axis`, `Ode.C76_angular_step`, `Ode.C76_zero_velocity`, `Ode.C76_vertical_step`, `Ode.C76_vertical_step_exact`, `Ode.C76_spherical_step`, `Ode.C76_spherical_rk4` |
| C77 (partial) | **pcq**: `Grad.C77_gradient3D`, `Grad.C77_gradient3D_exact_partial`, `Grad.C77_gradient3Dt`, `Grad.C77_gradient2Dt`, `Grad.C77_gradient2D`, `Grad.C77_gradient2D_affine`, `Grad.C77_jacobian2Dt`, `Grad.C77_jacobian3D`, `Grad.C77_vorticity3D`, `Grad.C77_cross_product3D`, `Grad.C77_Jv`, `Grad.C77_jacobian2D_symmetric`, `Grad.C77_jacobian2D_constant`, `Grad.C77_jacobian2D_off_diagonal`, `Grad.C77_jacobian3Dt_out_of_bounds` |
| C78 (partial) | **pcq**: `Num.C78_gradient_2dsimplex2_partial`, `Num.C78_affine_interpolant`, `Num.C78_jacobian_2dsimplex2`, `Num.C78_jacobian_3dsimplex`, `Num.C78_gradient_3dsimplex2_wrong` |
| C79 (partial) | **pcq**: `Conv.C79_conv2D_partial`, `Conv.C79_conv3D_partial`, `Conv.C79_constant`, `Conv.C79_gaussian_kernel`, `Conv.C79_gaussian_kernel2D`; **pq**: `Conv.C79_too_large` |
| C80 (partial) | **pcq**: `Num.C80_one_norm2_partial`, `Num.C80_one_norm3`, `Num.C80_inf_norm2`, `Num.C80_cond2`, `Num.C80_cond3`, `Num.C80_frobenius`, `Num.C80_decomposition` |
| C81 (partial) | **pcq**: `Roots.C81_quadratic`, `Roots.C81_cubic`, `Roots.C81_quartic_partial`, `Roots.C81_quartic_nan`, `Roots.C81_quartic_unit_roots_nan` |
| C82 (partial) | **pcq**: `Num.C82_normalize`, `Num.C82_eigenvectors2_partial`, `Num.C82_eigenvectors3_partial` |
| C83 (proved) | **pcq**: `Ctr.C83_contour_edges`, `Ctr.C83_schedule_independent` |
| C84 (partial) | **pcq**: `Ctr.C84_contour_point_partial`, `Ctr.C84_point_leaves_edge` |
| C85 (proved) | **pcq**: `Ctr.C85_surface`, `Ctr.C85_watertight`, `Ctr.C85_order` |
| C86 (partial) | **pcq**: `Ctr.C86_isovolume_partial`, `Ctr.C86_triangular_patches`, `Ctr.C86_quadrilaterals_do_not_fit` |
| C87 (partial) | **pcq**: `Surf.C87_line`, `Surf.C87_volume`, `Surf.C87_surface_partial`; **p**: `Surf.C87_pentagon_fifth_point` |
| C88 (partial) | **pcq**: `Surf.C88_slice`, `Surf.C88_slice_time_partial`, `Surf.C88_slice_time_misses_triangle` |
| C89 (proved) | **pcq**: `Surf.C89_line`, `Surf.C89_slice_time`; **p**: `Surf.C89_two_point_line_is_a_loop` |
| C90 (partial) | **pcq**: `Surf.C90_discard_partial`, `Surf.C90_discard_apart`; **pq**: `Surf.C90_keeps_flagged`, `Surf.C90_stale_quads` |
| C91 (partial) | **pq**: `Surf.C91_reorient_partial`, `Surf.C91_breaks_orientation`, `Surf.C91_leaves_disagreement`, `Surf.C91_no_triangles` |
| C92 (partial) | **pcq**: `UTrk.C92_exactly_once`, `UTrk.C92_driver`, `UTrk.C92_streaming`, `UTrk.C92_schedule_independent`, `UTrk.C92_detected_iff`, `UTrk.C92_punctured`, `UTrk.C92_punctured_partial`, `UTrk.C94_degenerate_dropped` |
| C93 (proved) | **pcq**: `UTrk.C93_weights`, `UTrk.C93_position`, `UTrk.C93_exact` |
| C94 (partial) | **pcq**: `UTrk.C94_follows_partial`, `UTrk.C94_follows_dyadic`, `UTrk.C94_degenerate_dropped` |
| C95 (proved) | **pcq**: `SoS.C95_hit1`, `SoS.C95_hit2`, `SoS.C95_hit3`, `SoS.C95_negative_index`, `Num.C95_solve2`, `Num.C95_solve3` |
| C96 (proved) | **pcq**: `CLT.C96_detects`, `CLT.C96_point`, `CLT.C96_zero_dyadic` |
| C97 (partial) | **pcq**: `CLT.C97_ring`, `CLT.C97_surface_partial`, `CLT.C97_quad_closed` |
| C98 (proved) | **pcq**: `CLT.C98_lines` |
| C99 (proved) | **pcq**: `Swirl.C99_sujudi_haimes`, `Swirl.C99_ridge_valley` |
<!-- /AXIOMS -->

## 3 Plan per property: what is modelled and how it is proved

| id | model | proof |
|----|-------|-------|
| C01-C03 | `basic/union_find.hh` as state machine over parent/size association | refinement to the equivalence closure of the united pairs; rank measure for termination |
| C04 | `basic/simple_union_find.hh` over a parent array | same invariant, path halving |
| C05 | `basic/duf.hh` sequential | invariant parent <= self, root = minimum |
| C06 | `basic/duf.hh` as interleaving transition system | invariants over all traces; negation witness for completeness |
| C07 | `external/.../parallel_for` strided loops | permutation of `range ntasks` |
| C08 | `mesh/lattice.hh` indexing | mixed-radix induction |
| C09-C11 | `mesh/lattice_partitioner.hh` | induction over the queue rounds; interval arithmetic |
| C12-C16, C56 | `mesh/simplicial_regular_mesh.hh` for every dimension n | mixed radix; simplices as chains in the Boolean lattice |
| C17-C18, C21, C57-C58 | `algorithms/bfs.hh`, `cca.hh`, `ccl.hh`, `geometry/cc2curves.hh` | loop invariants |
| C19 | `algorithms/hoshen_kopelman.hh` | raster-scan invariant with union-find |
| C20 | `algorithms/dijkstra.hh` | classical settled-set invariant over an ordered monoid |
| C22, C59-C60 | `tracking_graph/tracking_graph.hh`, `filters/connected_component_tracker.hh` | components of the overlap graph, event decision logic |
| C23-C28, C61-C66 | `features/feature_curve.hh`, `feature_curve_set.hh`, `critical_point_tracker.hh` post-processing | list induction |
| C29-C32 | `numeric/sign_det.hh` | sign algebra; perturbation polynomials over ordered fields; general-position theorem in every dimension |
| C33, C54 | det/adjugate/solvers/inverse interpolation | ring identities against Mathlib's matrices |
| C34-C37, C53, C67 | rational, interval, polynomial, critical point type, fixed point, root solvers | algebra, case analysis, Mathlib's `Polynomial` |
| C38-C43, C68 | `ndarray.hh` | strides as mixed radix |
| C41 | serializers | prefix-code laws, compositional |
| C44 | `ndarray/streaming_filter.hh` | queue invariant |
| C45-C46, C55 | `utils/gather.hh`, `redistribute.hh`, `all2all.hh`, ... | list/displacement arithmetic |
| C47-C48, C72 | the tracker: `critical_point_tracker*.hh`, `json_interface.hh` loop, tracing | driver invariant over op lists; component/curve combinatorics over C14, C21, C32 |
| C49 | `geometry/kd.hh` | induction over the build recursion |
| C50 | `basic/contour_tree.hh` | invariant |
| C51-C52 | `mesh/simplicial_unstructured_extruded_2d_mesh_implicit.hh` | case analysis over id classes for an abstract base mesh |
| C69-C71 | `mesh/simplicial_unstructured_2d_mesh.hh` | invariants of the table-building loops, any hash order |
| C73 | `mesh/point_locator_2d_quad.hh`, `aabb.hh` | well-founded build: centroid sets shrink; induction over tree/stack |
| C74 | `mesh/regular_mesh.hh` | combinatorics of sublists of the axes |
| C75-C76 | `numeric/rk4.hh`, `numeric/quaternion.hh` | matrix algebra, polynomial quadrature; Rodrigues' formula |
| C77 | `ndarray/grad.hh` | write lists of the loops, any permutation; `runOp_spec` |
| C79 | `ndarray/conv.hh` | same write lists; sums over the kernel window |
| C78 | `numeric/gradient.hh` | exact solutions of the least-squares systems of C33 |
| C80 | `numeric/matrix_norm.hh`, `cond.hh`, `matrix_decomposition.hh` | operator norm: bound and attained |
| C81 | `quadratic_solver.hh`, `cubic_solver.hh`, `quartic_solver.hh` (complex) | factorisation identities over C |
| C82 | `eigen_solver2.hh`, `eigen_solver3.hh` (eigenvectors) | kernel of the 3x2 system = eigenvectors of sum 0 |
| C83 | `filters/contour_tracker_*_regular.hh`, `contour_tracker*.hh` | invariant of the driver loop over any permutation of tasks; SoS predicate for one value = threshold test |
| C84 | `check_simplex` of both trackers | algebra of the interpolation weights |
| C85 | `contour_tracker_2d_regular.hh: build_isosurfaces` | per-cell sign tables lifted by incidence of the mesh (C14) |
| C86 | `contour_tracker_3d_regular.hh: build_isovolume` | same, 5-vertex sign tables; two-cell counterexample for the diagonals |
| C87 | `features/feature_{line,surface,volume}.hh: relabel` | union-find specification (C04): classes = equivalence generated by cells |
| C88 | `feature_volume.hh: slice, slice_time` | set semantics of the triangle set, renumbering is a bijection |
| C89 | `feature_line.hh: to_curve_set`, `feature_surface.hh: slice_time` | C18 + C21 over the neighbour relation of cells |
| C90 | `feature_surface.hh: discard` | invariant of the parent/children forest |
| C91 | `feature_surface.hh: reorient` | invariant of the breadth-first search; counterexamples |
| C92 | `critical_point_tracker_2d_unstructured.hh`, time loop of `critical_point_tracker.hh` on `Verif.XM` | induction over the driver loop, C51/C52 for the elements, C07 for the schedules |
| C93 | `check_simplex`, `inverse_lerp_s2v2`, `lerp_s2v4` | C54, C95 |
| C94 | `finalize` (offline), `trace_critical_points_offline` | Strip argument of C72 over the extruded unstructured mesh: two cofaces (C52), parity (C32) |
| C95 | `critical_point_test.hh`, `sign_det.hh` | the query is perturbed by lower powers of ε than every vertex: a hyperplane containing a degenerate simplex misses it |
| C96 | `critical_line_tracker.hh`, `critical_line_tracker_3d_regular.hh` on a generic time loop (`Verif.Gen`) | generic driver invariant (`Gen.drive_holds`), C56 for the elements, C54/C95 for the points |
| C97 | `build_vortex_surfaces`, `feature_surface_t::relabel` | parity of the tetrahedra (C32) gives a graph on five nodes with degrees 0 or 2, which is one cycle; C87 for the labels |
| C98 | `build_vortex_lines` | triangles at one time correspond to the facets of the 3-D mesh (two tetrahedra each, C14); Strip argument of C72; C18, C21 |
| C99 | `snapSH`, `snapRV` (the pushed arrays), `readSH`/`readRV` (flat reads at an offset), the tracker of C96 with these values | C77 gives the arrays; reads are in place; C96_detects, C96_point |
| C100 | `cubic_discriminant`, `characteristic_polynomial_3x3`, interpolated Jacobian | the discriminant is the product of squared differences of the complex roots; a real cubic has a real root, the others are real or conjugate |
| C101 | `snapLDS`, `extraLDS` | as C99; witness for the two-component norm |
| C102 | the same | C96_zero_dyadic for the first two components; witnesses |
| C103 | the same on any domain | values of the arrays on the outer layers (zero), then as C99; witness on the domain of ftk.cpp |
| C104 | `crossed`, `mod2pi1` over ℝ | the reduced angle is unique; the sum of the unreduced ones is minus the circulation |
| C105 | `potential`, `lineIntegral` | algebra; witnesses |
| C106 | `crossed`, `psi`, `weights` | the reduced angles are the same; rotation |
| C107 | `Tdgl.tracker` (a `Gen.VProg`) | `Gen.vertex_drive` |
| C108 | four faces of a tetrahedron | edges are shared with opposite orientation; signs of angles; witnesses |
| C109 | `point` | cross products of the values = sines of the angles, of one sign; converse; witness |
| C110 | `Tdgl.surfaces` | C97's argument for an abstract test with 0 or 2 crossed faces per tetrahedron (`Sheet`) |
| C111 | `PT.update`, `PT.drive` (task order as parameter) | tasks touch only their trajectory; induction over the series |
| C112 | `PT.loop`, `rk4v`, `evalVt` over an ordered field | steps either all succeed or one fails; time component |
| C113 | as C112 | the failing stage is in the time window, hence outside the grid; outside is preserved; witness |
| C114 | as C112 with uniform snapshots | the quadratic path is a path of the loop; bounds on all stages |
| C115 | as C112 | `current_t` ignores `delta_t`; witnesses |
| C116 | as C112 with affine snapshots | multilinear interpolation reproduces affine fields; algebra of one step |
| C117 | `PT.seedGrid` | C13 |
| C118 | as C114 | explicit list of recorded velocities; witness |
| C119 | `Ineq.linearIneq` with extended-real endpoints | cases |
| C120 | `Ineq.cubicIneq` on top of the C67 and C35 models | C67 roots, intermediate value theorem, finite union of closed intervals |
| C121 | `Ineq.evalRational`, `evalInf` | L'Hospital and degree comparison; swap P and Q for the NaN case |
| C122 | `U3.build` (sort, std::map tables, side_of sets), spec on the list of tetrahedra | one layer lemma used for triangles and edges |
| C123 | `X3.getSimplex`, `typeOf`, enumeration lists | inductive decoding relation, total, functional, injective, complete |
| C124 | `X3.sides`, `X3.sideOf` as tables | explicit faces per type; case analysis over types x erased vertex for completeness |
| C125 | same | same; incompleteness by evaluation on two tetrahedra |
| C126 | `X3T.update/advance/run` over the extruded mesh, arbitrary visit orders | invariant over calls (points found so far = what the series says), enumeration from C123 |
| C127 | `X3T.mu` as written (mu[2] twice) | Cramer, uniqueness of weights; violation by evaluation |
| C128 | `X3T.nb`, `finalize` | pentachora have zero or two punctured faces (C32), at most two cofaces per tetrahedron (manifold base mesh), generic strip lemma |
| C129 | `X3T.lineTest` | as C126 with the 2-D test; zero_core of C80 |
| C130 | `X3T.lines` | restriction to time 0: faces = base triangles, side_of complete there for base tetrahedra; neighbour asymmetry outside is harmless |
| C131 | transform, get_simplex, find_simplex, get_poloidal, is_poloidal, is_actual_poloidal over the implicit extrusion of C51 | lift a simplex of the torus to the infinite stack of planes, move it by whole turns into plane 0..np-1, use the enumeration of C51; lifts are unique up to turns when np ≥ 3 |
| C132 | sides, side_of, get_vertex_edge_vertex | transport C52 along whole turns; ids of nested lifts differ by less than two planes |
| C133 | get_coords with the size of the buffer, to_vtu_slices | evaluation for every vertex; index arithmetic on flattened rows |
| C134 | initialize_interpolants (field-line map, locate, nearest as parameters), the three interpolate functions | index arithmetic, algebra over an ordered field |
| C135 | derive_turbulence with its 1-D interpolation | induction over the knots; sums over planes |
| C136 | push, advance_timestep, update_timestep, get_sliced over the torus mesh (C132), interpolation (C134) and union-find (C01) | invariant: the pairs united so far are the bright neighbour pairs of the steps done; equivalence closure |
| C138 | quadratic_interpolation.hh over a field | identities by ring after introducing barycentric coordinates |
| C139 | solve_pv_s2v3, solve_pv_s1v2 | determinant of the pencil vanishes at the root; normal equations of the rank-2 system |
| C140 | solve_pv_s1v3 | soundness when the third component varies; counterexamples |
| C141 | characteristic_polynomials_pv_s3v3 / s2v2 / constant | polynomial evaluation lemmas and the adjugate |
| C142 | inverse bilinear/trilinear solvers, underdetermined eigen solver | elimination; counterexamples for affine fields |
| C143 | critical_point_degree_simplex2 | signs of cross products versus determinant |
| C144 | wachspress_weights | areas of triangles, telescoping sums |
| C137 | push_scalar_field_data_snapshot over the models of C19 and C60 | composition; a frame-wise labelling relation |
| C145 | the degree branch of both check_simplex, chirality of triangles | C30 (sign of the determinant), permutation signs, affine change of orientation |
| C146 | start/finish/modified_callback over the model of C44; smoothing and noise are arbitrary functions | induction over the loop; pointwise transfer of C44; convexity |
| C147 | the two threads as a transition system with one mutex and condition variable | invariant over all schedules, a decreasing measure, explicit bad schedules |
| C148 | prefix sums, file search, window computation, hyperslab reads, interleaving | induction over the files; index arithmetic |
| C149 | both searches of mpas.hh, bisection with fuel, reads beyond the array as undefined | loop invariant, agreement by uniqueness |
| C150 | point_in_mpas_cell over an ordered field | determinant algebra |
| C151 | locate_cell_i with and without hint; the search tree is an arbitrary function, C49 enters as hypothesis | loop invariant over the neighbours |
| C152 | the table as successive assignments, the shortcut | induction over the list of identifiers |
| C153 | the interpolants and their application at one vertex | minimality of C54_s2v3 |
| C154 | the two layer loops and the evaluation | loop lemmas, C149, C144, C151 |
| C155 | the three loops of the grid, the in-place scaling, the accumulated thickness | induction over lists |
| C156 | integer step counts | integer arithmetic |
| C157 | the driver with its snapshots, an arbitrary cell test and order of visits | induction over the series |
| C158 | the same driver in ordinal mode | evaluation of the step |
| C159 | triangles of cells, points of a set | loop lemmas, order independence |
| C160 | related cells rebuilt from the archive | equality of sorted lists |
| C161 | the plane numbers of a simplex | case analysis |
| C162 | the ten passes over the curve set, on the model of C61-C66 | membership through every pass |
| C163 | breadth first search with a queue | search invariant |
| C164 | the functions over the reals and the loops of the generators as lists | derivatives, trigonometry, list lemmas |
| C165 | the same for the double gyre | derivatives |
| C166 | the same for the ABC flow | derivatives |
| C167 | the generator over the lattice of C08 | induction over coordinates |
| C168 | ramps, volcano, merger | order of reals, exp |
| C169 | handles, counters and objects with released memory as an outcome; threads with the decrement and the test as separate steps | invariant over histories, induction over the order of threads |
| C170 | bcastv and scatterv over the codecs of C37/C45 | packing lemma, codec laws |
| C171 | strings as lists of characters | induction |
| C172 | the chains of tests | suffix order |
| C173 | decimal conversion with padding | value of digit lists, lexicographic order |
| C174 | the loops of initialize_roi and new_roi_mesh over lists | loop invariants, monotone numbering |
| C175 | evaluation, field-line loop with rk4, seam | induction on steps, exactness of rk4 on constant slopes |
| C176 | gradients over the incidence sets of C69 | uniqueness of the linear interpolant's gradient |
| C177 | formulas of the fields over C176 | calculus (HasDerivAt) for the intended formulas, algebra |
| C178 | the breadth-first search of C17 with a disc condition | reachability, sorted sets |
| C179 | sums over the kernel | HasDerivAt of the Gaussian sum |
| C180 | lines as lists of characters, stod a parameter | induction on the lines |
| C181 | the same | the same |
| C182 | stream as state machine, names as in C173 | induction on the calls, value of digit lists |
| C183 | lists of vertices and triangles, the loop as a fold | induction on the segments, pairs (ring, patch) for the edges |
| C184, C185 | frames over the reals, NaN as none | orthonormality as invariant; transport nonzero unless perpendicular |
| C186 | 32-bit words (BitVec), the loop as recursion over the bytes | every mixing step is a bijection |
| C187 | directory as association list, name = hash in hexadecimal | injectivity of the hash in one group, induction on the requests |
| C188 | the two id lists over the model of the tetrahedral mesh (C122), integer division for the period | invariants of the scan, injectivity of the layering |
| C189 | sides, side_of, normalize as written | normalize is the identity; then C122; witness: one prism |
| C190 | JSON object as a map from keys to values, configure step by step | each step characterised, then composed |
| C191 | file = dimensions and variables as index functions; nc_put_vara by its documented meaning | the linear index of a hyperslab against the reading model of C148 |
| C192 | out-of-bounds reads as none | list lengths |
| C193 | association list with emplace | induction on the calls |
| C194 | the kernel of C178 on tetrahedral meshes | breadth-first search theorem of C17 with the neighbour lists of C122 |
| C195 | sums over any field, then reals | lists of derivatives, HasDerivAt along each axis |
| C196 | unit mesh of C122, numbers split by division | modular arithmetic against a specification by plane and vertex |
| C197 | pointer as Option | case distinction and witnesses |
| C198 | arrays as functions, generic loops writing into a memory list, swaps as updates | Mathlib matrices; induction on the list of writes and of swaps |
| C199 | writes outside a list as none | equivalence with the size of the output |
| C200 | polynomials as in the code | ring; convexity by nested linear interpolation |
| C201 | VTK grid as points and cells, meshes of C69 and C122 | sorting is idempotent, so both builds run on the same lists |
| C202 | initialisation started from the old maps | same computation for the lists, witnesses for the maps |
| C203 | the two maps as lists of pairs, the cancelling loop, a sorted set | the loop is truncated subtraction; keys are distinct |
| C204 | the loop over pieces with the model of `disjoint_intervals` of C35, sampling, evaluation as in C121 | invariant of consecutive joins, no change of sign between critical cells |
| C205 | reads past an array as none | cases; witnesses |
| C206 | HSI2RGB over the reals with its three sectors | trigonometric identities; the quotient of the cosines is between -1 and 2 |
| C207 | hues as options (NaN is none), conversion to bytes as a partial floor | induction over the hues; the first and last hue are evaluated |
| C208 | settings as a record, `split` of C171 and `stoi` of C182 with the range of int | induction over the pieces |
<!-- PLANROWS -->

Every listed property is expressible in the model; none is "not applicable".

## 4 What is modelled and what is not

Modelled (files under `include/ftk`): the functions named in the anchors of `properties.jsonl`,
each cited with line numbers in the corresponding `Model.lean`.

Not modelled at all: VTK / HDF5 / NetCDF / ADIOS I/O, JSON parsing and command-line front ends,
CUDA / HIP / SYCL kernels, XGC- and MPAS-specific interpolation, GUI (Qt/VTK plugins), memory and
lifetime of C++ objects, the C++ memory model beyond interleavings, floating-point rounding,
machine-integer overflow (except where a property mentions it), logging and timing.
Code that does not compile when instantiated is not modelled but is listed in section 5.

## 5 Findings

"(proved)" means a theorem in the model establishes the fact about the code as written;
"(read)" means it was seen in the source and is not modelled.

### Union-find and threads
* (proved) `duf::unite` run concurrently can lose a union; `find` on an absent element of
  `union_find` is undefined although its comment promises otherwise; (read) `sz` doubles when
  uniting one set with itself; `simple_union_find::reset()` does not reset `sz`; `duf::sync` is a no-op;
  `shared_union_find.hh` does not compile.
* (proved) `parallel_for` with `nthreads = 0` has no terminating split.

### Lattice and partition
* (proved) `given` shorter than `ndim` reads out of bounds; `prime_factorization(0)` does not
  terminate. (read) a second call to `partition` appends to the cores.

### Regular mesh
* (proved) `to_work_index` forgets the type; `operator<` ignores `dim`, `to_integer` collides across
  dimensions; `element_for_interval` ignores `t1`. (read) `dimprod_` is `int`;
  `subdivide_unit_cube(0)` recurses for ever.

### Graph algorithms, tracking graph, Hoshen-Kopelman
* (proved) bfs components need symmetric neighbours; `trackByLabels` drops pairs with equal labels;
  curves of two nodes are always reported as loops; `hoshen_kopelman` sizes `labels` as `nelem/2`
  and overruns it on checkerboards and single cells; Dijkstra with unreachable destination reads an
  uninitialised node.
* (proved) split/merge keep one global label despite the "simply connected" comment; three-way
  split/merge is "compound"; `detect_events` twice doubles the events; isolated features never become
  nodes in `connected_component_tracker`; a shorter next frame is out of bounds; two pushes before the
  first advance use timestep -1. (read) copying a `tracking_graph` keeps a `std::function` bound to
  the old object; `has_node`/`has_edge`, `linear_graph_tracer`, `ccl.hh`'s include do not compile.

### Feature curves
* (proved) `split` drops the first point of each new type run; `intercept` on an unordered curve
  loses points and is undefined on an empty one; `rotate` on an empty loop, `unwrap` on an empty curve
  are undefined; `update_statistics` of an empty curve keeps stale values; `from_list` does not relabel;
  JSON loses complete/loop/vmmin/vmmax and the diy serializer id/loop/vmmin/vmmax.
* (read) `duration_pruning` is a no-op; `split` leaves `id` uninitialised; `from_vtp` reads
  `GetPoint(i)` instead of `idlist[i]`; `feature_point::dist` uses `exp2` for squaring; `locate()`
  always returns 0.

### Simulation of simplicity and numerics
* (proved) equal indices break antisymmetry; `inverse_lerp_s1v2` never checks its residual (reports a
  zero where there is none); `s3v3` rejects zeros on vertices that `s2v2` accepts.
* (read) indices are `int`, mesh ids are truncated; `robust_intersect_half_line2` swaps by y, calls
  `robust_sign_det3` without sorting and can recurse for ever; `robust_point_in_polygon2` omits the
  closing edge; `elgs`/`legs` zero the pivot row; `matrix3x4_vector4_multiplication` and
  `matrix_matrix_multiplication_3x3_3x3` are called but not defined; `orientation.hh`, `fixed_int.hh` do
  not compile.
* (proved) rational: `operator+`/`-` return b+b / b-b, `+=`/`*=` can give negative denominators after
  which `==` misses equality and `<` is wrong or loops; 2/4 != 1/2. (read) `operator=` lacks a return.
* (proved) interval: `join` ignores open flags; the set keyed by lower end drops intervals; `contains`
  is true at the ends of an empty interval. (read) `set_lower_inf` writes the upper end for integers.
* (proved) polynomial subtraction with m < n returns Q-P; the quadratic/cubic array solvers write
  past a two-cell array / report uninitialised roots in degenerate cases.
* (proved) 3-D non-symmetric critical points are always UNKNOWN; `fixed_point::operator/` divides by
  the scaling factor. (read) `solve_quadratic_rational_inequality` reads `Q[3]` past the end.

### ndarray, serialization, communication, streaming filter
* (proved) `fill(vector)` breaks the shape; transpose drops flags and is fatal for >= 5-D; `slice_time`
  is fatal on 1-D; `subarray` of multicomponent arrays is out of bounds; `min_max` is wrong for negative
  floats; `operator+` does not check shapes; `mlerp` never accepts the last hyperplane.
  (read) `nelem()` accumulates in `int`; `from_index` uses an empty lattice; `read_amira` returns false
  on success.
* (proved) loading a map/set merges into existing contents; `all2all` receive displacements are all
  zero, data is lost with three ranks.
* (proved) streaming filter: series shorter than the kernel give wrong outputs; `finish` on an empty
  filter pops an empty deque. (read) the reported timestep depends on unspecified evaluation order.

### k-d tree, contour tree
* (proved) a binding `max_level` forgets points; building on no points is out of bounds; `reduce_node` on
  an isolated node invents the arc -1 -> -1. (read) `find_nearest_nonrecursive`, `upper_nodes`,
  `lower_nodes` do not compile.

### Unstructured and extruded meshes
* (proved) three triangles on an edge corrupt the next edge's column, duplicates write out of bounds;
  the METIS adjacency loop stops at n(2) instead of n(1); `part_vertices` is filled from the edge set;
  `gid2lid` is filled the wrong way round.
* (proved) extruded mesh: `mod(-n,n) = n`, so ids at negative multiples decode wrongly and `side_of`
  aborts; `flat_vertex_time` divides unsigned; `find_simplex` depends on vertex order and accepts
  non-edges; `get_vertex_edge_vertex` omits diagonals.
* (read) the vector constructor of the 2-D mesh builds no edges; `vector_gradient` writes
  `grad(1) = grad(0)/ntris`; `eval` is transposed; the 3-D mesh constructor never calls `initialize`.

### Tracker
* (proved) the streaming driver never hands over the last timestep; calling `update_timestep` twice in
  streaming mode duplicates points; `advance` with one snapshot skips that interval for ever and is
  undefined without any; without GMP the quantisation factor changes between timesteps and a
  trajectory can end inside the box; a NaN does the same; online tracing splits trajectories that join.
* (read) simplex indices truncated to `int`; `ub-lb+1` overflows with the default `end_timestep`;
  explicit 3-D coordinates use component 2 as time; the CUDA path passes `scalar[0]` twice; the curve id
  counter is racy; partial input arrays make the factor differ between ranks; `locate_spatial_quad` truncates -0.5 to 0;
  `set_use_default_domain_partition` ignores its argument.
* (proved) the quad-tree locator never finds points on the upper/right boundary of the mesh, and recurses for
  ever on two triangles with the same centroid; `regular_mesh::end(d)` is the last element, not past it;
  `rk4` leaves the particle at an intermediate point when a later evaluation fails; `angular_stepping` with
  zero velocity gives NaN.
* (proved) `gradient2D` gives twice the derivative inside the grid but once on its boundary; `jacobian2D` computes
  `V(i+1) - V(i-1)*(DW-1)` (missing parenthesis) and with `symmetric = false` writes `grad(0,1)`, i.e. one fixed pixel,
  instead of the entry (0,1); `vorticity3D` is twice the curl; `jacobian3Dt` uses `k-1 = -1`, out of bounds;
  `conv2D/conv3D` divide by the number of kernel entries although the Gaussian kernels are normalised.
  (read) `jacobian2DPL` returns nothing.
* (proved) `gradient_3dsimplex2`: `X[2][2]-X[2][2]` makes the z-component of every gradient 0; the Frobenius norms are
  their squares; `quartic_solve` gives NaN for `x^4-1` and `x^4-3x^2-3/4`; `solve_eigenvectors*` give NaN for an
  eigenvector whose coordinates sum to 0, e.g. `(1,-1)` of `[[2,1],[1,2]]`.
  (read) `gradient_3dsimplex3` / `solve_least_square4x3`, `matrix_2norm_real2x2` and `vortex_lambda2_criterion` call
  functions that do not exist (they do not compile when used).
* (proved, C84) contour trackers ignore the success flag of `inverse_lerp_s1v1`: with both values above the threshold, one by
  less than 2^-21, the reported point is an extrapolation outside the edge.
* (proved, C86) the isovolume is not conforming: two pentachora sharing a tetrahedron with four cut edges may split the
  quadrilateral along different diagonals.
* (proved, C86) with `end_timestep` left at its default, pentachora reaching beyond the last snapshot contribute flat
  tetrahedra (last clause of `C86_isovolume_partial`).
* (read) `contour_tracker_3d_regular` reads its gradient at global coordinates while the scalar is read relative to the
  array's start: out of bounds for arrays that do not start at 0.
* (proved, C87) `feature_surface_t::relabel` joins only the first four points of a pentagon.
* (proved, C88) `feature_volume_t::slice_time(t)` requires all four points of a tetrahedron to have timestep `t`: triangles
  bounding tetrahedra of the interval before `t` only are missed, so the last slice of a series is empty.
* (proved, C90) `discard` keeps a point to be discarded whose nearest neighbour was merged into it; quadrilaterals and
  pentagons are left with stale point numbers.
* (proved, C91) `reorient` flips a neighbour exactly when it already agrees (sign), compares `ea[i]` with `eb[i]` instead of
  `eb[j]` (then the assertion at the end of `chirality` fails), and reads `tris[0]` of an empty vector.
* (read) the member functions in `feature_line.hh` are not `inline`: including the header twice breaks the link.
* (proved, C94) the unstructured 2-D tracker tests quantised vectors but solves with the unquantised ones: if these are
  collinear the solver divides by zero, `check_simplex` returns false, and the trajectory has a gap although the triangle is
  punctured (`C94_degenerate_dropped`, all numbers exact doubles).
* (proved, C97) `critical_line_tracker_3d_regular::build_vortex_surfaces` emits all four triangles on the four points of a
  quadrilateral patch (a closed tetrahedral surface) and nine of the ten triangles on the five points of a pentagonal one, so
  the surface is not a manifold: an edge between two patches belongs to four or more triangles (`C97_quad_closed`).
* (read, C98) `build_vortex_lines` never sets the `loop` flag of closed curves; `reset()` keeps `surfaces`, `traced_curves` and
  `related_cells` of the previous run.
* (proved, C101) `vortmag` is `vector_2norm_2` of a 3-vector: only two of three components; a vortex along `z` gets `vortmag` 0
  (`C101_vortmag_zero`).
* (proved, C102) the core line trackers test the first two components of the cross product only: points with a nonzero third
  component are recorded (`C102_not_parallel`, it is reported as `residue`), and flows in planes `z = const` give no point at
  all (`C102_planar_none`).
* (proved, C103) `ftk.cpp` sets the domain of these trackers to starts `(2,2,2)`, *sizes* `(D-2, …)`, so it contains the far faces
  of the array where the cross product is left at zero; spurious points are found there (`C103_cli_spurious`).
* (read, C100) the Jacobian is read as its transpose (`J[k*3+j]` order); harmless for the characteristic polynomial.
* (proved, C105) `magnetic_potential` chooses the gauge by `B[1] > 0`: for `B[1] < 0` the second component of the field is ignored
  (`C105_flux_lost`; the test was probably meant to be `!= 0`), and for `B[1] > 0` the first one is (`C105_flux_lost_first`).
* (proved, C108) a phase difference of exactly half a turn is reduced to `-pi` in both directions of an edge, so that a single face
  of a tetrahedron can be crossed (`C108_tie`): the vortex ends in the interior.
* (proved, C108, C109) with a field, all four faces of a tetrahedron can be crossed although less than half a turn circulates around
  each (`C108_four`), and the point can be outside its triangle (`C109_outside`; the result of `inverse_lerp_s2v2` is ignored and
  the weights are not clamped).
* (read, C107) `re` and `im` are read for every simplex and never used.
* (proved, C113) when a stage of `rk4` fails, `pt` is left at that stage: the particle is recorded outside the grid at an unfinished stage,
  and every later interval records it twice more (`C113_recorded_outside`, `C113_stuck_outside`).
* (proved, C115) `current_t = current_timestep` does not account for `set_delta_t`: with `0 < delta_t < 1` no particle moves after the first
  interval (`C115_small_delta_t`); with `delta_t = 2` it stops early (`C115_large_delta_t`).  A particle seeded between two time steps
  runs past the last time step (`C115_seed_between_steps`).
* (proved, C111) `set_nsteps_per_checkpoint(n)` ignores `n`.
* (proved, C118) the first point of each interval carries uninitialised velocities, the others the velocity of the previous step.
* (proved, C112) the first point of every interval repeats the last point of the previous one.
* (proved, C119) a slope below the machine epsilon is treated as zero: the whole line is returned although the inequality fails for large x.
* (proved, C120) isolated zeros of a non-positive piece are not reported; `x^3 + x^2` and `x^2 + x` make the solver sort an uninitialised cell
  (`C120_isolated_zero`, `C120_undefined`).
* (proved, C122) the public constructor of the 3-D unstructured mesh never builds triangles, edges or any search table, and `sides` is a stub.
* (proved, C123) `get_simplex(4, ·)` returns one vertex twice for every pentachoron of the last type (`tet[1]'` written twice, `tet[0]'` never); `n_interval(4) = n_ordinal(4) = n(4)`, so
  `element_for_interval(4, t)` visits the pentachora of interval t+1.
* (proved, C125) `side_of(2, ·)` of the extruded 3-D mesh misses tetrahedra (for triangles without a vertical edge), so the neighbour relation used to connect critical lines is not symmetric.
* (proved, C126) `push_vector_field_snapshot` and `push_scalar_field_snapshot` of the 3-D unstructured critical point tracker are empty overrides; json_interface pushes with them, so the first update
  reads an empty deque.
* (proved, C127) in the fallback of the 3-D unstructured tracker `mu[2]` is assigned twice and `mu[3]` never clamped: weights summing up to 4 and points far outside of their tetrahedron occur.
* (proved, C131) `find_simplex` of the torus mesh aborts (`assert(succ)`) for a vertex, and with two planes it returns the id of another simplex for most simplices, because each plane is both "first" and "last"; with one plane simplices contain a vertex twice.
* (proved, C132) `get_vertex_edge_vertex` of the torus mesh misses the diagonal edges, like that of the extruded mesh (C52).
* (proved, C133) `get_coords` / `get_coords_xyz` of the torus mesh passes `F rzp[3]` to a function that writes `coords[3]`: undefined for every vertex; and the angle is taken from `coords[2]`, which is 0 in every plane.
* (proved, C134) `interpolate` on a wedge (`iphi > 1`) reads outside the field for every vertex beyond the first wedge: the plane before is not taken modulo `nphi`, the plane after is.
* (read, not proved) `rotate` calls `m2->get_triange`, which does not exist: it does not compile when instantiated.
* (proved, C136) `xgc_blob_threshold_tracker::get_sliced` labels an isolated superthreshold vertex −1 like the background; a snapshot pushed after `advance_timestep` of the step before is never joined with it; `advance_timestep` without a snapshot reads an empty queue; vertex numbers of space-time are computed in `int` and overflow.
* (proved, C138) `quadratic_interpolation_hessian` returns half of the second derivatives on the diagonal: the minimum of x²+1.5xy+y² is seen as a saddle.
* (proved, C140) `solve_pv_s1v3` returns points where the fields are not parallel (third component unchecked) and misses true ones. The same header calls `linear_interpolation3_3`, which does not exist.
* (proved, C142) the inverse bilinear/trilinear solvers never find the zero of an affine field, and may report NaN coordinates.
* (proved, C143) `critical_point_degree_simplex2` returns minus the index; at a vertex zero 0/0 is computed and the result does not depend on the field.
* (proved, C144) `wachspress_weights` writes past `A[10]` for more than ten vertices.
* (reading) `matrix3x4_matrix4x2_multiplication` declares its result `C[2][2]` and writes three rows; `particle_tracer_mpas_ocean` adds `zTop` of the neighbouring cells without the interpolation weights.
* (proved, C137) the threshold tracker aborts on anything but 2-D arrays and runs out of bounds on frames with many corners; `set_input_shape` is declared but never defined.
* (proved, C145) with degrees enabled the regular 2-D tracker reports type 1 for index −1 and the unstructured one type 1 for index +1 (triangles given counter-clockwise); for clockwise triangles it is the other way round.
* (proved, C147) the asynchronous stream loses frames whenever the reader is faster than the caller: the shared slot is overwritten, and if the reader finishes first the callback is never called at all; with zero steps start() waits for ever; a spurious wake-up repeats a frame or passes an uninitialised step number.
* (proved, C148) a time step beyond the last record silently reads the first record of the first file; a variable with a time dimension that is not unlimited is read as an array of zeros.
* (read) stream.hh: the serial reader of raw binary files ignores the block set by set_part; the validation of `clamp` tests the type of its first entry twice; an empty array is delivered in asynchronous mode but ends the synchronous loop.
* (proved, C149) locate_mpas_layer_brute_force reads one element beyond the tops for depths at or below the last top.
* (proved, C152/C155) with identifiers that are not consecutive, a seed in no cell makes i2cid read at index -1; with consecutive ones an unknown identifier becomes an index beyond the arrays.
* (proved, C154) without a layer as hint the search starts at the second layer with top 0: particles in the first layer are evaluated with the data of the second.
* (proved, C155) initialize_particles_at_grid_points scales the position in place, so the depths of successive layers multiply up; accRestingThickness omits the first layer.
* (proved, C156) intervals of less than a day (and streamlines of a single time step) make no integration step at all.
* (read) mpas_mesh.hh: initialize_edge_normals writes all normals into the first entry; initialize_cell_tangent_plane uses an edge identifier as an index; coeffsReconstruct has shape (3, max_edges) but is indexed by the cell; is_vertex_on_boundary calls a function that does not exist; surface_cells_to_vtu reads seven vertices of every cell. rbf3d_plane_vec_const_dir never writes its coefficients. set_nsteps_per_checkpoint ignores its argument. initialize_particles_latlonz numbers curves with i*nlat*nz instead of i*nlon*nz (the number is replaced by add).
* (proved, C158) xgc_blob_filament_tracker in ordinal-only mode: from the second timestep on, triangles of timestep t are tested with the data of t+1; the last timestep reads a snapshot that has been popped.
* (proved, C159) check_penta is skipped for t >= end_timestep while the command line sets end_timestep to the last timestep: the last interval never contributes, and two timesteps give no surface. Cells with four points give all four triangles (a closed tetrahedron), cells with five points 9 of 10.
* (proved, C161) with two planes the seam test takes every simplex between the planes for one across the seam.
* (proved, C162) two neighbouring maxima after a point of another type are lost in post_process_curves.
* (read) update_vector_field_scaling_factor of a zero field gives an infinite factor, the products are NaN and their conversion to integers is undefined.
* (proved, C167) synthetic_moving_extremum_grad_unstructured is minus half of the gradient: minima look like maxima.
* (read) synthetic_time_varying_double_gyre passes its amplitude as the Boolean zchannel, so that all parameters are shifted by one; modified_double_gyre uses functions as numbers and does not compile; all grid generators divide by zero for a dimension of size 1; only the woven case of the synthetic stream honours a part.
* (proved, C169) async_ptr: assignment never releases the old object, self-assignment leaks, a copied wrapper of a null pointer uses a released counter, a default handle wraps its counter to 2^32 - 1, and two threads that destroy the last two handles can both see zero and release twice. get() does not compile; nothing in the code uses the class.
* (read) shared_union_find.hh and sweep_and_merge.h do not compile.
* (proved, C170) bcastv of a std::map keeps the receiver's own extra entries; scatterv asserts the number of values on all ranks, so that a call with values on the root only fails.
* (proved, C171) the post-processing option duration_pruning:value is accepted and does nothing.
* (proved, C172) json_interface tests "vtp" before "pvtp": a name ending in .pvtp never selects the parallel format. output_format "binary" is overridden by the name, a misspelt format is not reported. Extensions are recognised without a dot ("cabin" is a binary file); remove_file_extension cuts at a dot in a directory name.
* (proved, C173) beyond the width of the pattern file names sort out of time order.
* (proved, C174) initialize_roi writes roi[i] into an array of the size of nextnodes: without nextnodes the first vertex of the region is written out of bounds; marks of an earlier region stay. new_roi_mesh keeps the entries of a node_map that is not empty, so that vertices outside the region keep the index 0 and wrong triangles appear; a bfield without a psifield is written out of bounds.
* (proved, C175) xgc_eq_t::eval_L never sets the third component (the angle velocity is uninitialised); a field line traced around the torus integrates its last segment back to plane 0 instead of to 2 pi; a negative number of steps silently leaves the point where it is; nearest on an empty mesh returns an uninitialised index.
* (proved, C176) simplicial_unstructured_2d_mesh.hh:672, vector_gradient divides grad(0,c,i) instead of grad(1,c,i): the second derivative of every component is lost.
* (proved, C177) the curl of the unit field loses all Z derivatives (C176); derive_delta_B has the cross product of gradient and field reversed relative to the curl term, lacks 1/R on the derivative in phi and takes the gradient of plane 0 for every plane.
* (proved, C178) building the kernels a second time appends to the first ones.
* (proved, C179) smooth_scalar_gradient_jacobian returns minus the gradient of the smoothed field but plus its Hessian; it adds onto what the outputs contained; weights have the normalisation of one dimension and are not normalised over the mesh.
* (proved, C180) xgc_units_t::read stops silently (false, the rest unread) at the members eq_den_v1, ptl_charge_eu, sml_wedge_n, ptl_mass_au; a line without semicolon loses the last digit of its number; a blank line is undefined behaviour; text that is not a number throws.
* (proved, C181) probe_nphi_iphi reads strs[1] of a list of one element for an indented comment with an equality sign and for a name without a value.
* (proved, C182) an XGC stream starts at index 1 of the files by default (the command line turns a start of 0 into 1): the first file is never delivered, and with all files asked for the list is overrun at the end. filename2step uses find_last_of as if it were rfind: names with further suffixes get wrong steps; steps of six digits are cut to five. mpas_stream replaces a number of steps set before initialize.
* (proved, C184) curve2tube: a repeated point of a curve makes every vertex from there to the end of the tube NaN, because the normal is carried along; so does a right-angled turn in the direction of the carried normal (e.g. the L-shaped curve (0,0,0), (1,0,0), (1,1,0)).
* (proved, C185) curve2tube never uses the first colour: the first ring takes the colour of the second point.
* (proved, C187) the names of the cached smoothing kernels depend on the triangles and sigma but not on the vertex coordinates, those of the cached interpolants not on the coordinates or the equilibrium: a mesh with the same connectivity in the same directory silently gets the tables of another; with double sigmas different sigmas can share a name.
* (proved, C189) explicit extruded mesh: `sides` is always empty (the 3D mesh does not implement it) and `side_of` uses an id of this mesh as an id of the 3D mesh, moves by n(d) instead of n(d+1) ids per period and never looks at the previous period (it compares vertices with the number of vertices of both planes): for the prism the triangle between periods 0 and 1 is said to be a side of a tetrahedron of period 3.
* (proved, C188) explicit extruded mesh: ids that are negative multiples of n(d) are decoded as cell n(d) of the period, beyond the arrays.
* (proved, C190) writer.hh tests the format under the misspelt key "foramt": a NetCDF configuration without variable is accepted and writes files without any variable.
* (proved, C191) writer.hh writes the whole array into every variable; components of a multicomponent array are not separated (the code for that is disabled): dimension lengths are taken from the component axis and the rest of the data is dropped.
* (proved, C192) to_netcdf prints st[0..3] and sz[0..3] whatever their number: a read outside the vectors for every array of fewer than four dimensions (three with unlimited time).  With the default dimensions x, y, z a 1D array also makes the writer read outside the list of dimensions.
* (proved, C193) ndarray_group::set does not replace: it uses emplace, so setting a key again silently keeps the old array; get with another element type dereferences a null pointer.
* (proved, C195) the smoothed gradient on tetrahedral meshes has the wrong sign; the weights are those of a one-dimensional Gaussian and not normalised; the output arrays are not cleared.
* (proved, C196) a field-following mesh with two planes can have the same tetrahedron under two numbers, and with one plane tetrahedra with repeated corners.
* (proved, C197) initialize_ff_mesh with a file that does not exist dereferences a null pointer; find_simplex never finds anything.
* (proved, C199) matrix3x4_matrix4x2_multiplication declares its 3x2 result as T[2][2]: called with such an array it writes behind it.  (matrix3x3_square and vortex_lambda2_criterion call functions that do not exist; vortex_lambda2_criterion also returns an absolute value, whose sign is the criterion.)
* (proved, C201) writing a triangle mesh to VTU and reading it loses the orientation (chirality) of the triangles, because the sorted vertices are written; vtkPoints are single precision, so coordinates are rounded.
* (proved, C202) from_vtu does not clear the maps of a mesh: edges and tetrahedra of the previous file are still found (or fail an assertion), and a file with fewer points makes build_edges write outside its vectors.
* (proved, C205) solve_quadratic_rational_inequality_quantized tests its three-coefficient denominator with degree 3: for a zero denominator it reads Q[3] past the end.
* (proved, C205) for (x-1)^2/x the solvers return [0, inf): joining the two pieces at the double root forgets that 0 is an open end, so a pole is reported as a solution.
* (proved, C204) two roots of P in the same cell are recorded as one simple root; with a root of Q in that cell everything cancels and the whole line is returned although P/Q is negative on half of it.
* (proved, C207) generate_colors(1, …) computes 0/0 and converts NaN to a byte; in every table of two or more colours the first and the last colour are equal (hues 0 and 1).  (read) zcolor.h uses PI without defining it and random_color.hh does not include zcolor.h.
* (proved, C208) hardware_concurrency() may be 0; a filter then has nthreads = 0 and every parallel loop repeats task 0 for ever (C07).
<!-- MOREFINDINGS -->
