{
 "claims": [
  {
   "property": "C01",
   "status": "proved",
   "theorems": [
    "Isomesh.C01_ctor_accepts",
    "Isomesh.C01_ctor_rejects",
    "Isomesh.C01_dataSize"
   ],
   "note": ""
  },
  {
   "property": "C02",
   "status": "proved",
   "theorems": [
    "Isomesh.C02_point_index_point",
    "Isomesh.C02_index_point_index",
    "Isomesh.C02_order",
    "Isomesh.C02_outside"
   ],
   "note": ""
  },
  {
   "property": "C03",
   "status": "proved",
   "theorems": [
    "Isomesh.C03_inGrid",
    "Isomesh.C03_onBorder"
   ],
   "note": ""
  },
  {
   "property": "C04",
   "status": "proved",
   "theorems": [
    "Isomesh.C04_around_edge_geometry",
    "Isomesh.C04_adjacentCells"
   ],
   "note": ""
  },
  {
   "property": "C05",
   "status": "proved",
   "theorems": [
    "Isomesh.C05_cell_vertices"
   ],
   "note": ""
  },
  {
   "property": "C06",
   "status": "proved",
   "theorems": [
    "Isomesh.C06_fill_materials"
   ],
   "note": ""
  },
  {
   "property": "C07",
   "status": "proved",
   "theorems": [
    "Isomesh.C07_endpoints",
    "Isomesh.C07_filled",
    "Isomesh.C07_fill_edges",
    "Isomesh.C07_solver_precondition",
    "Isomesh.C07_offset"
   ],
   "note": ""
  },
  {
   "property": "C08",
   "status": "proved",
   "theorems": [
    "Isomesh.C08_findEdge_after_fill"
   ],
   "note": ""
  },
  {
   "property": "C09",
   "status": "proved",
   "theorems": [
    "Isomesh.C09_findEdge_sorted",
    "Isomesh.C09_sortEdges",
    "Isomesh.C09_addEdges"
   ],
   "note": ""
  },
  {
   "property": "C10",
   "status": "proved",
   "theorems": [
    "Isomesh.C10_refill"
   ],
   "note": ""
  },
  {
   "property": "C11",
   "status": "proved",
   "theorems": [
    "Isomesh.C11_in_segment",
    "Isomesh.C11_better_end",
    "Isomesh.C11_bisection",
    "Isomesh.C11_filled_grid_offset"
   ],
   "note": ""
  },
  {
   "property": "C12",
   "status": "proved",
   "theorems": [
    "Isomesh.C12_regula_falsi",
    "Isomesh.C12_zero_endpoint",
    "Isomesh.C12_affine_exact"
   ],
   "note": ""
  },
  {
   "property": "C13",
   "status": "proved",
   "theorems": [
    "Isomesh.C13_step_count"
   ],
   "note": ""
  },
  {
   "property": "C14",
   "status": "proved",
   "theorems": [
    "Isomesh.C14_cell_edges",
    "Isomesh.C14_edge_mask",
    "Isomesh.C14_triangle_table",
    "Isomesh.C14_edges_used"
   ],
   "note": ""
  },
  {
   "property": "C15",
   "status": "proved",
   "theorems": [
    "Isomesh.C15_valid",
    "Isomesh.C15_vertex_position",
    "Isomesh.C15_point_on_edge"
   ],
   "note": ""
  },
  {
   "property": "C16",
   "status": "proved",
   "theorems": [
    "Isomesh.C16_closed"
   ],
   "note": ""
  },
  {
   "property": "C17",
   "status": "proved",
   "theorems": [
    "Isomesh.C17_orientation",
    "Isomesh.C17_corner"
   ],
   "note": ""
  },
  {
   "property": "C18",
   "status": "proved",
   "theorems": [
    "Isomesh.C18_vertices",
    "Isomesh.C18_minimiser"
   ],
   "note": ""
  },
  {
   "property": "C19",
   "status": "proved",
   "theorems": [
    "Isomesh.C19_quads",
    "Isomesh.C19_facing"
   ],
   "note": ""
  },
  {
   "property": "C20",
   "status": "proved",
   "theorems": [
    "Isomesh.C20_closed",
    "Isomesh.C20_closed_surface"
   ],
   "note": ""
  },
  {
   "property": "C21",
   "status": "proved",
   "theorems": [
    "Isomesh.C21_dc_minimal_edges",
    "Isomesh.C21_mdc_minimal_edges",
    "Isomesh.C21_leaves_tile"
   ],
   "note": ""
  },
  {
   "property": "C22",
   "status": "proved",
   "theorems": [
    "Isomesh.C22_completes",
    "Isomesh.C22_contour"
   ],
   "note": ""
  },
  {
   "property": "C23",
   "status": "proved",
   "theorems": [
    "Isomesh.C23_unsimplified"
   ],
   "note": ""
  },
  {
   "property": "C24",
   "status": "proved",
   "theorems": [
    "Isomesh.C24_collapse"
   ],
   "note": ""
  },
  {
   "property": "C25",
   "status": "proved",
   "theorems": [
    "Isomesh.C25_manifold_table"
   ],
   "note": ""
  },
  {
   "property": "C26",
   "status": "proved",
   "theorems": [
    "Isomesh.C26_vertices"
   ],
   "note": ""
  },
  {
   "property": "C27",
   "status": "proved",
   "theorems": [
    "Isomesh.C27_edge_sets",
    "Isomesh.C27_joined"
   ],
   "note": ""
  },
  {
   "property": "C28",
   "status": "proved",
   "theorems": [
    "Isomesh.C28_contour",
    "Isomesh.C28_sizes",
    "Isomesh.C28_completes",
    "Isomesh.C28_indices"
   ],
   "note": ""
  },
  {
   "property": "C29",
   "status": "proved",
   "theorems": [
    "Isomesh.C29_closed",
    "Isomesh.C29_closed_surface",
    "Isomesh.C29_contour"
   ],
   "note": ""
  },
  {
   "property": "C30",
   "status": "proved",
   "theorems": [
    "Isomesh.C30_dsu"
   ],
   "note": ""
  },
  {
   "property": "C31",
   "status": "proved",
   "theorems": [
    "Isomesh.C31_fast_filter"
   ],
   "note": ""
  },
  {
   "property": "C32",
   "status": "partial",
   "theorems": [
    "Isomesh.C32_fast_merge_partial",
    "Isomesh.C32_merge_majority_fails"
   ],
   "note": "The full claim (majority of the union) is false of the code: C32_merge_majority_fails. Proved: membership, non-emptiness and majority when the margin exceeds the number of merges."
  },
  {
   "property": "C33",
   "status": "proved",
   "theorems": [
    "Isomesh.C33_precise_filter",
    "Isomesh.C33_ties",
    "Isomesh.C33_order"
   ],
   "note": ""
  },
  {
   "property": "C34",
   "status": "proved",
   "theorems": [
    "Isomesh.C34_mesh_history",
    "Isomesh.C34_addVertex"
   ],
   "note": ""
  },
  {
   "property": "C35",
   "status": "proved",
   "theorems": [
    "Isomesh.C35_eval",
    "Isomesh.C35_eval_exact"
   ],
   "note": ""
  },
  {
   "property": "C36",
   "status": "proved",
   "theorems": [
    "Isomesh.C36_merge",
    "Isomesh.C36_combine_comm",
    "Isomesh.C36_combine_assoc",
    "Isomesh.C36_mass_average"
   ],
   "note": ""
  },
  {
   "property": "C37",
   "status": "proved",
   "theorems": [
    "Isomesh.C37_rows",
    "Isomesh.C37_access",
    "Isomesh.C37_eval"
   ],
   "note": ""
  },
  {
   "property": "C38",
   "status": "proved",
   "theorems": [
    "Isomesh.C38_box",
    "Isomesh.C38_optimal",
    "Isomesh.C38_feature_dim"
   ],
   "note": ""
  },
  {
   "property": "C39",
   "status": "proved",
   "theorems": [
    "Isomesh.C39_eval",
    "Isomesh.C39_eval_exact",
    "Isomesh.C39_merge",
    "Isomesh.C39_rows",
    "Isomesh.C39_access",
    "Isomesh.C39_box",
    "Isomesh.C39_optimal"
   ],
   "note": ""
  },
  {
   "property": "C40",
   "status": "proved",
   "theorems": [
    "Isomesh.C40_unit",
    "Isomesh.C40_sign",
    "Isomesh.C40_close",
    "Isomesh.C40_zero_gradient",
    "Isomesh.C40_point"
   ],
   "note": ""
  },
  {
   "property": "C41",
   "status": "partial",
   "theorems": [
    "Isomesh.C41_total",
    "Isomesh.C41_small",
    "Isomesh.C41_insert_partial",
    "Isomesh.C41_lost",
    "Isomesh.C41_shape",
    "Isomesh.C41_corner"
   ],
   "note": "The full claim is false of the code: C41_lost. Proved: an insertion keeps everything stored before and stores the new triangle exactly if some place it goes to has room; nothing is lost up to sixty triangles; corner/leaf guarantees."
  },
  {
   "property": "C42",
   "status": "partial",
   "theorems": [
    "Isomesh.C42_node_distance",
    "Isomesh.C42_source",
    "Isomesh.C42_bound",
    "Isomesh.C42_exact_partial",
    "Isomesh.C42_sign",
    "Isomesh.C42_small",
    "Isomesh.C42_miss"
   ],
   "note": "The full claim is false of the code: C42_miss. Proved: the answer is a stored triangle with its true distance, an upper bound, exactness when the nearest point is in a box in which its triangle is stored, and exactness up to sixty triangles."
  },
  {
   "property": "C43",
   "status": "proved",
   "theorems": [
    "Isomesh.C43_distance",
    "Isomesh.C43_sign"
   ],
   "note": ""
  },
  {
   "property": "C44",
   "status": "partial",
   "theorems": [
    "Isomesh.C44_normalization_partial",
    "Isomesh.C44_negative_fails"
   ],
   "note": "Centring/extent is false for all-negative axes: C44_negative_fails. Proved: containment always, exact bounding box otherwise."
  },
  {
   "property": "C45",
   "status": "proved",
   "theorems": [
    "Isomesh.C45_winding"
   ],
   "note": ""
  },
  {
   "property": "C46",
   "status": "proved",
   "theorems": [
    "Isomesh.C46_in_bounds",
    "Isomesh.C46_range",
    "Isomesh.C46_height_range",
    "Isomesh.C46_bilinear",
    "Isomesh.C46_pixel",
    "Isomesh.C46_extends",
    "Isomesh.C46_extends_z",
    "Isomesh.C46_center_square",
    "Isomesh.C46_center_fails"
   ],
   "note": "The documented position of the central pixel is wrong for images that are not square: C46_center_fails."
  },
  {
   "property": "C47",
   "status": "proved",
   "theorems": [
    "Isomesh.C47_sign",
    "Isomesh.C47_unloaded",
    "Isomesh.C47_load",
    "Isomesh.C47_translate",
    "Isomesh.C47_pixel_size",
    "Isomesh.C47_height_range",
    "Isomesh.C47_setters_keep_image"
   ],
   "note": ""
  },
  {
   "property": "C48",
   "status": "partial",
   "theorems": [
    "Isomesh.C48_written_iff",
    "Isomesh.C48_built_iff",
    "Isomesh.C48_built_reads_uninitialised",
    "Isomesh.C48_geometry_partial",
    "Isomesh.C48_strict_iff",
    "Isomesh.C48_reads_uninitialised"
   ],
   "note": "The full claim is false of the code: C48_reads_uninitialised, C48_built_reads_uninitialised, demoDmc_uninitialised. Proved: the exact condition under which no uninitialised material is read, and that positions, normals and triangles never depend on uninitialised data (C48_geometry_partial)."
  },
  {
   "property": "C49",
   "status": "proved",
   "theorems": [
    "Isomesh.C49_linear_zero"
   ],
   "note": ""
  },
  {
   "property": "C50",
   "status": "proved",
   "theorems": [
    "Isomesh.C50_dmc_topology",
    "Isomesh.C50_dmc_mesh",
    "Isomesh.C50_indices_valid",
    "Isomesh.C50_contour_completes",
    "Isomesh.C50_completes_size"
   ],
   "note": ""
  },
  {
   "property": "C51",
   "status": "proved",
   "theorems": [
    "Isomesh.C51_dmc_vertices"
   ],
   "note": ""
  },
  {
   "property": "C52",
   "status": "proved",
   "theorems": [
    "Isomesh.C52_size"
   ],
   "note": ""
  },
  {
   "property": "C53",
   "status": "proved",
   "theorems": [
    "Isomesh.C53_dmc_build",
    "Isomesh.C53_accept",
    "Isomesh.C53_tiling",
    "Isomesh.C53_addresses"
   ],
   "note": "Root sizes up to 2^27 (for 2^28 and more size * 8 overflows in the code)."
  },
  {
   "property": "C54",
   "status": "proved",
   "theorems": [
    "Isomesh.C54_angle",
    "Isomesh.C54_step",
    "Isomesh.C54_jacobi"
   ],
   "note": ""
  },
  {
   "property": "C55",
   "status": "proved",
   "theorems": [
    "Isomesh.C55_export",
    "Isomesh.C55_roundtrip"
   ],
   "note": ""
  },
  {
   "property": "C56",
   "status": "proved",
   "theorems": [
    "Isomesh.C56_inverse",
    "Isomesh.C56_affine"
   ],
   "note": ""
  },
  {
   "property": "C57",
   "status": "proved",
   "theorems": [
    "Isomesh.C57_reset3",
    "Isomesh.C57_reset4"
   ],
   "note": ""
  },
  {
   "property": "C58",
   "status": "proved",
   "theorems": [
    "Isomesh.C58_closed",
    "Isomesh.C58_closed_surface"
   ],
   "note": ""
  },
  {
   "property": "C59",
   "status": "proved",
   "theorems": [
    "Isomesh.C59_vertices",
    "Isomesh.C59_fine",
    "Isomesh.C59_coarse"
   ],
   "note": ""
  },
  {
   "property": "C60",
   "status": "proved",
   "theorems": [
    "Isomesh.C60_monotone"
   ],
   "note": ""
  },
  {
   "property": "C61",
   "status": "proved",
   "theorems": [
    "Isomesh.C61_vertex_in_cell",
    "Isomesh.C61_value",
    "Isomesh.C61_mesh_in_root"
   ],
   "note": ""
  },
  {
   "property": "C62",
   "status": "proved",
   "theorems": [
    "Isomesh.C62_closed",
    "Isomesh.C62_closed_surface"
   ],
   "note": ""
  },
  {
   "property": "C63",
   "status": "proved",
   "theorems": [
    "Isomesh.C63_leaf_size",
    "Isomesh.C63_should_split",
    "Isomesh.C63_early_stop"
   ],
   "note": ""
  },
  {
   "property": "C64",
   "status": "partial",
   "theorems": [
    "Isomesh.C64_load",
    "Isomesh.C64_value_partial",
    "Isomesh.C64_value_small",
    "Isomesh.C64_grad"
   ],
   "note": "Exactness of the distance is false for more than sixty triangles (C41_lost, C42_miss). Proved: the rest, and exactness up to sixty triangles."
  },
  {
   "property": "C65",
   "status": "proved",
   "theorems": [
    "Isomesh.C65_lipschitz",
    "Isomesh.C65_grad_bounded",
    "Isomesh.C65_grad_exact"
   ],
   "note": ""
  },
  {
   "property": "C66",
   "status": "partial",
   "theorems": [
    "Isomesh.C66_build",
    "Isomesh.C66_destroy",
    "Isomesh.C66_stale",
    "Isomesh.C66_rebuild_unsafe"
   ],
   "note": "The full claim is false of the code when the root holds leaf data: C66_stale, C66_rebuild_unsafe. Proved: everything else (C66_build for all other states, C66_destroy)."
  },
  {
   "property": "C67",
   "status": "proved",
   "theorems": [
    "Isomesh.C67_mdc",
    "Isomesh.C67_dmc",
    "Isomesh.C67_mdc_destroy",
    "Isomesh.C67_dmc_destroy"
   ],
   "note": ""
  },
  {
   "property": "C68",
   "status": "proved",
   "theorems": [
    "Isomesh.C68_reuse",
    "Isomesh.C68_completes",
    "Isomesh.C68_leftover"
   ],
   "note": "C68_leftover records that a failed build leaves vertices of an earlier one in the mesh of the next contour call."
  },
  {
   "property": "C69",
   "status": "proved",
   "theorems": [
    "Isomesh.C69_edge_zero",
    "Isomesh.C69_solvers",
    "Isomesh.C69_marching_cubes",
    "Isomesh.C69_dual_contouring",
    "Isomesh.C69_vertex",
    "Isomesh.C69_dc_octree",
    "Isomesh.C69_dc_octree_unsimplified",
    "Isomesh.C69_mdc_octree"
   ],
   "note": ""
  },
  {
   "property": "C70",
   "status": "proved",
   "theorems": [
    "Isomesh.C70_crossing",
    "Isomesh.C70_marching_cubes",
    "Isomesh.C70_dual_contouring",
    "Isomesh.C70_dmc_octree",
    "Isomesh.C70_mdc_octree",
    "Isomesh.C70_dc_octree"
   ],
   "note": ""
  },
  {
   "property": "C71",
   "status": "proved",
   "theorems": [
    "Isomesh.C71_topology",
    "Isomesh.C71_fit",
    "Isomesh.C71_plane_vanishes"
   ],
   "note": ""
  },
  {
   "property": "C72",
   "status": "proved",
   "theorems": [
    "Isomesh.C72_uniform_vertex",
    "Isomesh.C72_uniform_dc",
    "Isomesh.C72_marching_cubes",
    "Isomesh.C72_mdc_vertex",
    "Isomesh.C72_mdc_contour",
    "Isomesh.C72_demo",
    "Isomesh.C72_uniform_demo"
   ],
   "note": ""
  },
  {
   "property": "C73",
   "status": "proved",
   "theorems": [
    "Isomesh.C73_fill_materials",
    "Isomesh.C73_fill_edges",
    "Isomesh.C73_findEdge_after_fill"
   ],
   "note": ""
  },
  {
   "property": "C74",
   "status": "proved",
   "theorems": [
    "Isomesh.C74_bisection_in_segment",
    "Isomesh.C74_bisection_local",
    "Isomesh.C74_bisection_accuracy",
    "Isomesh.C74_offset_bounds",
    "Isomesh.C74_offset_error",
    "Isomesh.C74_surface_point",
    "Isomesh.C74_regula_falsi_leaves_segment",
    "Isomesh.C74_regula_falsi_near_segment",
    "Isomesh.C74_sample_drift"
   ],
   "note": ""
  },
  {
   "property": "C75",
   "status": "proved",
   "theorems": [
    "Isomesh.C75_converted",
    "Isomesh.C75_filled_rounded",
    "Isomesh.C75_marching_cubes",
    "Isomesh.C75_dual_contouring",
    "Isomesh.C75_dc_octree",
    "Isomesh.C75_mdc_octree",
    "Isomesh.C75_dmc_octree"
   ],
   "note": ""
  },
  {
   "property": "C76",
   "status": "proved",
   "theorems": [
    "Isomesh.C76_sides_match",
    "Isomesh.C76_no_cracks",
    "Isomesh.C76_watertight",
    "Isomesh.C76_same_vertex",
    "Isomesh.C76_no_cracks_rounded",
    "Isomesh.C76_same_record_rounded",
    "Isomesh.C76_rounding_gap"
   ],
   "note": ""
  },
  {
   "property": "C77",
   "status": "proved",
   "theorems": [
    "Isomesh.C77_fill",
    "Isomesh.C77_marching_cubes",
    "Isomesh.C77_dual_contouring",
    "Isomesh.C77_dc_octree",
    "Isomesh.C77_mdc_octree",
    "Isomesh.C77_dmc_octree",
    "Isomesh.C77_simple_policy",
    "Isomesh.C77_simple_policy_gap"
   ],
   "note": ""
  },
  {
   "property": "C78",
   "status": "proved",
   "theorems": [
    "Isomesh.C78_determined",
    "Isomesh.C78_planes",
    "Isomesh.C78_planes4",
    "Isomesh.C78_merges",
    "Isomesh.C78_vertex_unique",
    "Isomesh.C78_uniform",
    "Isomesh.C78_octree_agrees"
   ],
   "note": ""
  },
  {
   "property": "C79",
   "status": "proved",
   "theorems": [
    "Isomesh.C79_dc",
    "Isomesh.C79_dc_leaf",
    "Isomesh.C79_mdc",
    "Isomesh.C79_dmc",
    "Isomesh.C79_mdc_leaf",
    "Isomesh.C79_dmc_leaf"
   ],
   "note": ""
  },
  {
   "property": "C80",
   "status": "proved",
   "theorems": [
    "Isomesh.C80_insert",
    "Isomesh.C80_lost",
    "Isomesh.C80_load",
    "Isomesh.C80_no_file",
    "Isomesh.C80_value",
    "Isomesh.C80_grad",
    "Isomesh.C80_unloaded",
    "Isomesh.C80_dangling",
    "Isomesh.C80_history"
   ],
   "note": ""
  },
  {
   "property": "C81",
   "status": "proved",
   "theorems": [
    "Isomesh.C81_volume",
    "Isomesh.C81_fill",
    "Isomesh.C81_error"
   ],
   "note": ""
  },
  {
   "property": "C82",
   "status": "proved",
   "theorems": [
    "Isomesh.C82_safe",
    "Isomesh.C82_left",
    "Isomesh.C82_recover",
    "Isomesh.C82_stale"
   ],
   "note": ""
  },
  {
   "property": "C83",
   "status": "proved",
   "theorems": [
    "Isomesh.C83_finders",
    "Isomesh.C83_edit",
    "Isomesh.C83_grid",
    "Isomesh.C83_dual_contouring"
   ],
   "note": ""
  },
  {
   "property": "C84",
   "status": "proved",
   "theorems": [
    "Isomesh.C84_marching_cubes",
    "Isomesh.C84_dual_contouring"
   ],
   "note": ""
  },
  {
   "property": "C85",
   "status": "proved",
   "theorems": [
    "Isomesh.C85_filled",
    "Isomesh.C85_stored",
    "Isomesh.C85_nan_iff",
    "Isomesh.C85_mesh",
    "Isomesh.C85_nan_fails"
   ],
   "note": ""
  },
  {
   "property": "C86",
   "status": "proved",
   "theorems": [
    "Isomesh.C86_calls",
    "Isomesh.C86_consistent",
    "Isomesh.C86_ofField",
    "Isomesh.C86_counts"
   ],
   "note": ""
  },
  {
   "property": "C87",
   "status": "proved",
   "theorems": [
    "Isomesh.C87_bisection",
    "Isomesh.C87_regula_falsi",
    "Isomesh.C87_ofField"
   ],
   "note": ""
  },
  {
   "property": "C88",
   "status": "proved",
   "theorems": [
    "Isomesh.C88_marching_cubes",
    "Isomesh.C88_surface_point",
    "Isomesh.C88_walk",
    "Isomesh.C88_dual_contouring"
   ],
   "note": ""
  },
  {
   "property": "C89",
   "status": "proved",
   "theorems": [
    "Isomesh.C89_cut",
    "Isomesh.C89_volume"
   ],
   "note": ""
  },
  {
   "property": "C90",
   "status": "proved",
   "theorems": [
    "Isomesh.C90_embedded",
    "Isomesh.C90_fill",
    "Isomesh.C90_regula_falsi",
    "Isomesh.C90_chunks"
   ],
   "note": ""
  },
  {
   "property": "C91",
   "status": "proved",
   "theorems": [
    "Isomesh.C91_volume",
    "Isomesh.C91_chunks",
    "Isomesh.C91_convergence",
    "Isomesh.C91_cover"
   ],
   "note": ""
  },
  {
   "property": "C92",
   "status": "proved",
   "theorems": [
    "Isomesh.C92_near",
    "Isomesh.C92_convergence"
   ],
   "note": ""
  },
  {
   "property": "C93",
   "status": "proved",
   "theorems": [
    "Isomesh.C93_near",
    "Isomesh.C93_complete",
    "Isomesh.C93_convergence",
    "Isomesh.C93_cover"
   ],
   "note": ""
  },
  {
   "property": "C94",
   "status": "proved",
   "theorems": [
    "Isomesh.C94_terrain",
    "Isomesh.C94_slope",
    "Isomesh.C94_solid",
    "Isomesh.C94_columns",
    "Isomesh.C94_vertices",
    "Isomesh.C94_accuracy",
    "Isomesh.C94_normals"
   ],
   "note": ""
  },
  {
   "property": "C95",
   "status": "proved",
   "theorems": [
    "Isomesh.C95_volume",
    "Isomesh.C95_body"
   ],
   "note": ""
  },
  {
   "property": "C96",
   "status": "proved",
   "theorems": [
    "Isomesh.C96_uniform",
    "Isomesh.C96_octree",
    "Isomesh.C96_finder",
    "Isomesh.C96_mdc"
   ],
   "note": ""
  },
  {
   "property": "C97",
   "status": "proved",
   "theorems": [
    "Isomesh.C97_solver",
    "Isomesh.C97_uniform",
    "Isomesh.C97_octree",
    "Isomesh.C97_mdc",
    "Isomesh.C97_common",
    "Isomesh.C97_limit"
   ],
   "note": ""
  },
  {
   "property": "C98",
   "status": "proved",
   "theorems": [
    "Isomesh.C98_solver",
    "Isomesh.C98_solver4",
    "Isomesh.C98_uniform",
    "Isomesh.C98_octree",
    "Isomesh.C98_mdc",
    "Isomesh.C98_weight",
    "Isomesh.C98_limit",
    "Isomesh.C98_clean",
    "Isomesh.C98_grid"
   ],
   "note": ""
  },
  {
   "property": "C99",
   "status": "proved",
   "theorems": [
    "Isomesh.C99_load"
   ],
   "note": ""
  },
  {
   "property": "C100",
   "status": "proved",
   "theorems": [
    "Isomesh.C100_value",
    "Isomesh.C100_overflow",
    "Isomesh.C100_unloaded",
    "Isomesh.C100_grad",
    "Isomesh.C100_near"
   ],
   "note": ""
  },
  {
   "property": "C101",
   "status": "proved",
   "theorems": [
    "Isomesh.C101_inGrid",
    "Isomesh.C101_onBorder",
    "Isomesh.C101_min",
    "Isomesh.C101_min_access"
   ],
   "note": ""
  },
  {
   "property": "C102",
   "status": "proved",
   "theorems": [
    "Isomesh.C102_dc_octree",
    "Isomesh.C102_clean",
    "Isomesh.C102_planes"
   ],
   "note": ""
  },
  {
   "property": "C103",
   "status": "proved",
   "theorems": [
    "Isomesh.C103_mdc_octree",
    "Isomesh.C103_planes",
    "Isomesh.C103_clean"
   ],
   "note": ""
  },
  {
   "property": "C104",
   "status": "proved",
   "theorems": [
    "Isomesh.C104_vertices",
    "Isomesh.C104_dc_octree",
    "Isomesh.C104_mdc_octree",
    "Isomesh.C104_triangle",
    "Isomesh.C104_exact"
   ],
   "note": ""
  },
  {
   "property": "C105",
   "status": "proved",
   "theorems": [
    "Isomesh.C105_uniform",
    "Isomesh.C105_dc_octree",
    "Isomesh.C105_mdc_octree",
    "Isomesh.C105_dmc_octree"
   ],
   "note": ""
  }
 ]
}