{
 "claims": [
  {
   "property": "C01",
   "status": "proved",
   "theorems": [
    "SolidsPy.C01_numbering_bijective",
    "SolidsPy.C01_numbering_row_major",
    "SolidsPy.C01_neq_is_free_count"
   ],
   "note": ""
  },
  {
   "property": "C02",
   "status": "proved",
   "theorems": [
    "SolidsPy.C02_constrained_entries_kept",
    "SolidsPy.C02_fractional_entries_truncated",
    "SolidsPy.C02_eqcounter_success"
   ],
   "note": ""
  },
  {
   "property": "C03",
   "status": "partial",
   "theorems": [
    "SolidsPy.C03_negative_codes_never_numbered_partial",
    "SolidsPy.C03_positive_code_aliases",
    "SolidsPy.C03_fails_for_positive_codes"
   ],
   "note": "The intended property fails for positive codes: the negation and the aliasing are proved; the part that holds (codes 0 and negative) is the _partial theorem."
  },
  {
   "property": "C04",
   "status": "proved",
   "theorems": [
    "SolidsPy.C04_operator_row_count",
    "SolidsPy.C04_operator_row_entries",
    "SolidsPy.C04_operator_row_padding"
   ],
   "note": ""
  },
  {
   "property": "C05",
   "status": "proved",
   "theorems": [
    "SolidsPy.C05_dme_accepts_iff",
    "SolidsPy.C05_padded_triangle_rejected"
   ],
   "note": ""
  },
  {
   "property": "C06",
   "status": "proved",
   "theorems": [
    "SolidsPy.C06_wrong_ndof_aliases_rotation",
    "SolidsPy.C06_wrong_ndof_accepted"
   ],
   "note": ""
  },
  {
   "property": "C07",
   "status": "proved",
   "theorems": [
    "SolidsPy.C07_dense_assembly_scatter_add"
   ],
   "note": ""
  },
  {
   "property": "C08",
   "status": "proved",
   "theorems": [
    "SolidsPy.C08_sparse_dense_agree",
    "SolidsPy.C08_sparse_implies_dense"
   ],
   "note": ""
  },
  {
   "property": "C09",
   "status": "proved",
   "theorems": [
    "SolidsPy.C09_element_order_irrelevant"
   ],
   "note": ""
  },
  {
   "property": "C10",
   "status": "proved",
   "theorems": [
    "SolidsPy.C10_assembled_symmetric"
   ],
   "note": ""
  },
  {
   "property": "C11",
   "status": "proved",
   "theorems": [
    "SolidsPy.C11_energy_equivalence",
    "SolidsPy.C11_nodal_energy_equivalence"
   ],
   "note": ""
  },
  {
   "property": "C12",
   "status": "proved",
   "theorems": [
    "SolidsPy.C12_assembled_psd"
   ],
   "note": ""
  },
  {
   "property": "C13",
   "status": "proved",
   "theorems": [
    "SolidsPy.C13_load_vector",
    "SolidsPy.C13_load_vector_any_bc",
    "SolidsPy.C13_load_success"
   ],
   "note": ""
  },
  {
   "property": "C14",
   "status": "partial",
   "theorems": [
    "SolidsPy.C14_disjoint_superposition_partial",
    "SolidsPy.C14_superposition_fails",
    "SolidsPy.C14_linear_in_values",
    "SolidsPy.C14_superposition_iff_partial"
   ],
   "note": "loadasem overwrites, so superposition fails when a node is named by both lists (negation proved). C14_superposition_iff_partial says exactly when it holds: free components of nodes named in the second list have load 0 in the first. Linearity in the values is proved."
  },
  {
   "property": "C15",
   "status": "proved",
   "theorems": [
    "SolidsPy.C15_completion_entries",
    "SolidsPy.C15_read_back",
    "SolidsPy.C15_injective",
    "SolidsPy.C15_constrained_zero"
   ],
   "note": ""
  },
  {
   "property": "C16",
   "status": "proved",
   "theorems": [
    "SolidsPy.C16_retriever_value",
    "SolidsPy.C16_retriever_local",
    "SolidsPy.C16_retriever_bad_ids"
   ],
   "note": ""
  },
  {
   "property": "C17",
   "status": "proved",
   "theorems": [
    "SolidsPy.C17_solver_dispatch",
    "SolidsPy.C17_other_solver_unused"
   ],
   "note": ""
  },
  {
   "property": "C18",
   "status": "proved",
   "theorems": [
    "SolidsPy.C18_members_exist",
    "SolidsPy.C18_nodal_equilibrium",
    "SolidsPy.C18_stable_iff_nonsingular"
   ],
   "note": ""
  },
  {
   "property": "C19",
   "status": "proved",
   "theorems": [
    "SolidsPy.C19_only_equilibrium"
   ],
   "note": ""
  },
  {
   "property": "C20",
   "status": "proved",
   "theorems": [
    "SolidsPy.C20_run",
    "SolidsPy.C20_strains",
    "SolidsPy.C20_element_order"
   ],
   "note": ""
  },
  {
   "property": "C21",
   "status": "proved",
   "theorems": [
    "SolidsPy.C21_renumbered_run",
    "SolidsPy.C21_strains",
    "SolidsPy.C21_node_renumbering"
   ],
   "note": ""
  },
  {
   "property": "C22",
   "status": "proved",
   "theorems": [
    "SolidsPy.C22_linear_response"
   ],
   "note": ""
  },
  {
   "property": "C23",
   "status": "proved",
   "theorems": [
    "SolidsPy.C23_betti",
    "SolidsPy.C23_positive_work"
   ],
   "note": ""
  },
  {
   "property": "C24",
   "status": "proved",
   "theorems": [
    "SolidsPy.C24_energy_quadratic",
    "SolidsPy.C24_energy_of_solution",
    "SolidsPy.C24_energy_nonpos",
    "SolidsPy.C24_minimum_potential"
   ],
   "note": ""
  },
  {
   "property": "C25",
   "status": "proved",
   "theorems": [
    "SolidsPy.C25_silence_means_small_residual"
   ],
   "note": ""
  },
  {
   "property": "C26",
   "status": "proved",
   "theorems": [
    "SolidsPy.C26_tri3",
    "SolidsPy.C26_tri6",
    "SolidsPy.C26_quad4",
    "SolidsPy.C26_quad8",
    "SolidsPy.C26_quad9",
    "SolidsPy.C26_tet4",
    "SolidsPy.C26_hex8"
   ],
   "note": ""
  },
  {
   "property": "C27",
   "status": "proved",
   "theorems": [
    "SolidsPy.C27_tri3",
    "SolidsPy.C27_tri6",
    "SolidsPy.C27_quad4",
    "SolidsPy.C27_quad8",
    "SolidsPy.C27_quad9",
    "SolidsPy.C27_tet4",
    "SolidsPy.C27_hex8",
    "SolidsPy.C27_kronecker_tri3",
    "SolidsPy.C27_kronecker_tri6",
    "SolidsPy.C27_kronecker_quad4",
    "SolidsPy.C27_kronecker_quad8",
    "SolidsPy.C27_kronecker_quad9",
    "SolidsPy.C27_kronecker_tet4",
    "SolidsPy.C27_kronecker_hex8"
   ],
   "note": ""
  },
  {
   "property": "C28",
   "status": "proved",
   "theorems": [
    "SolidsPy.C28_tri3",
    "SolidsPy.C28_tri6",
    "SolidsPy.C28_quad4",
    "SolidsPy.C28_quad8",
    "SolidsPy.C28_quad9",
    "SolidsPy.C28_tet4",
    "SolidsPy.C28_hex8"
   ],
   "note": ""
  },
  {
   "property": "C29",
   "status": "proved",
   "theorems": [
    "SolidsPy.C29_accepts_iff",
    "SolidsPy.C29_returns",
    "SolidsPy.C29_raises",
    "SolidsPy.C29_threshold_absolute"
   ],
   "note": ""
  },
  {
   "property": "C30",
   "status": "proved",
   "theorems": [
    "SolidsPy.C30_jacoper",
    "SolidsPy.C30_plane",
    "SolidsPy.C30_solid",
    "SolidsPy.C30_axi"
   ],
   "note": ""
  },
  {
   "property": "C31",
   "status": "proved",
   "theorems": [
    "SolidsPy.C31_plane"
   ],
   "note": ""
  },
  {
   "property": "C32",
   "status": "proved",
   "theorems": [
    "SolidsPy.C32_solid"
   ],
   "note": ""
  },
  {
   "property": "C33",
   "status": "proved",
   "theorems": [
    "SolidsPy.C33_negative_radius",
    "SolidsPy.C33_accepts_iff",
    "SolidsPy.C33_strains"
   ],
   "note": ""
  },
  {
   "property": "C34",
   "status": "proved",
   "theorems": [
    "SolidsPy.C34_umat_condenses_elast_mat",
    "SolidsPy.C34_umat_is_plane_stress_hooke"
   ],
   "note": ""
  },
  {
   "property": "C35",
   "status": "proved",
   "theorems": [
    "SolidsPy.C35_symmetric",
    "SolidsPy.C35_positive_definite_iff",
    "SolidsPy.C35_returns_iff"
   ],
   "note": ""
  },
  {
   "property": "C36",
   "status": "proved",
   "theorems": [
    "SolidsPy.C36_elast_mat_is_hooke",
    "SolidsPy.C36_symmetric",
    "SolidsPy.C36_positive_definite_iff"
   ],
   "note": ""
  },
  {
   "property": "C37",
   "status": "partial",
   "theorems": [
    "SolidsPy.C37_same_matrices",
    "SolidsPy.C37_agrees_iff_partial",
    "SolidsPy.C37_axisymmetric_law_wrong"
   ],
   "note": "The intended statement (the axisymmetric and plane strain matrices follow Hooke's law) is false of the code: elast_mat_axi and elast_mat_2d omit the coupling lambda between normal strains. C37_agrees_iff_partial says exactly when the code's law agrees; C37_axisymmetric_law_wrong is the negation."
  },
  {
   "property": "C38",
   "status": "proved",
   "theorems": [
    "SolidsPy.C38_plane_shape",
    "SolidsPy.C38_solid_shape",
    "SolidsPy.C38_plane_symmetric",
    "SolidsPy.C38_solid_symmetric",
    "SolidsPy.C38_axi_symmetric"
   ],
   "note": ""
  },
  {
   "property": "C39",
   "status": "proved",
   "theorems": [
    "SolidsPy.C39_plane_semidefinite",
    "SolidsPy.C39_solid_semidefinite",
    "SolidsPy.C39_axi_semidefinite"
   ],
   "note": ""
  },
  {
   "property": "C40",
   "status": "proved",
   "theorems": [
    "SolidsPy.C40_plane_rigid",
    "SolidsPy.C40_solid_rigid",
    "SolidsPy.C40_axi_rigid"
   ],
   "note": ""
  },
  {
   "property": "C41",
   "status": "proved",
   "theorems": [
    "SolidsPy.C41_plane_zero_energy",
    "SolidsPy.C41_solid_zero_energy",
    "SolidsPy.C41_tri3_null_space"
   ],
   "note": ""
  },
  {
   "property": "C42",
   "status": "proved",
   "theorems": [
    "SolidsPy.C42_plane_patch"
   ],
   "note": ""
  },
  {
   "property": "C43",
   "status": "proved",
   "theorems": [
    "SolidsPy.C43_plane_mass",
    "SolidsPy.C43_solid_mass",
    "SolidsPy.C43_quad4_area",
    "SolidsPy.C43_tri3_area",
    "SolidsPy.C43_tet4_volume"
   ],
   "note": ""
  },
  {
   "property": "C44",
   "status": "proved",
   "theorems": [
    "SolidsPy.C44_truss",
    "SolidsPy.C44_plane",
    "SolidsPy.C44_solid",
    "SolidsPy.C44_axi"
   ],
   "note": ""
  },
  {
   "property": "C45",
   "status": "proved",
   "theorems": [
    "SolidsPy.C45_truss_rotation",
    "SolidsPy.C45_plane_rotation",
    "SolidsPy.C45_solid_rotation"
   ],
   "note": ""
  },
  {
   "property": "C46",
   "status": "proved",
   "theorems": [
    "SolidsPy.C46_plane_size",
    "SolidsPy.C46_plane_magnify",
    "SolidsPy.C46_solid_size",
    "SolidsPy.C46_plane_young",
    "SolidsPy.C46_plane_density",
    "SolidsPy.C46_plane_stiffness_ignores_density"
   ],
   "note": ""
  },
  {
   "property": "C47",
   "status": "proved",
   "theorems": [
    "SolidsPy.C47_quad4",
    "SolidsPy.C47_quad8",
    "SolidsPy.C47_quad9",
    "SolidsPy.C47_tri3_stiffness",
    "SolidsPy.C47_tri3_reversed"
   ],
   "note": ""
  },
  {
   "property": "C48",
   "status": "proved",
   "theorems": [
    "SolidsPy.C48_accepts_iff",
    "SolidsPy.C48_closed_form"
   ],
   "note": ""
  },
  {
   "property": "C49",
   "status": "proved",
   "theorems": [
    "SolidsPy.C49_too_few",
    "SolidsPy.C49_two_parameters",
    "SolidsPy.C49_last_parameter",
    "SolidsPy.C49_third_is_density",
    "SolidsPy.C49_exactly_three"
   ],
   "note": ""
  },
  {
   "property": "C50",
   "status": "partial",
   "theorems": [
    "SolidsPy.C50_axi_mass_is_plane_partial",
    "SolidsPy.C50_axi_mass_ignores_radius"
   ],
   "note": "False of the code: the integral has no radius factor. C50_axi_mass_is_plane_partial gives the mass the code computes, C50_axi_mass_ignores_radius the negation (mass unchanged when the element moves away from the axis)."
  },
  {
   "property": "C51",
   "status": "proved",
   "theorems": [
    "SolidsPy.C51_accepts_iff",
    "SolidsPy.C51_force",
    "SolidsPy.C51_symmetric",
    "SolidsPy.C51_energy",
    "SolidsPy.C51_semidefinite",
    "SolidsPy.C51_rigid",
    "SolidsPy.C51_null_space",
    "SolidsPy.C51_mass"
   ],
   "note": ""
  },
  {
   "property": "C52",
   "status": "proved",
   "theorems": [
    "SolidsPy.C52_truss",
    "SolidsPy.C52_spring"
   ],
   "note": ""
  },
  {
   "property": "C53",
   "status": "proved",
   "theorems": [
    "SolidsPy.C53_stress",
    "SolidsPy.C53_area_and_order",
    "SolidsPy.C53_returns_iff"
   ],
   "note": ""
  },
  {
   "property": "C54",
   "status": "proved",
   "theorems": [
    "SolidsPy.C54_truss_length",
    "SolidsPy.C54_exact_iff",
    "SolidsPy.C54_continuum_raises"
   ],
   "note": ""
  },
  {
   "property": "C55",
   "status": "proved",
   "theorems": [
    "SolidsPy.C55_law",
    "SolidsPy.C55_two_values_asymmetric",
    "SolidsPy.C55_not_assembled",
    "SolidsPy.C55_index_error"
   ],
   "note": ""
  },
  {
   "property": "C56",
   "status": "proved",
   "theorems": [
    "SolidsPy.C56_beam2DU_iff",
    "SolidsPy.C56_beam2D_iff",
    "SolidsPy.C56_rotation_stores_energy",
    "SolidsPy.C56_mirror"
   ],
   "note": ""
  },
  {
   "property": "C57",
   "status": "proved",
   "theorems": [
    "SolidsPy.C57_beam2DU_accepts_iff",
    "SolidsPy.C57_beam2D_accepts_iff",
    "SolidsPy.C57_beam2DU_symmetric",
    "SolidsPy.C57_beam2D_symmetric",
    "SolidsPy.C57_beam2DU_semidefinite",
    "SolidsPy.C57_beam2D_semidefinite",
    "SolidsPy.C57_beam2DU_bending",
    "SolidsPy.C57_beam2D_bending",
    "SolidsPy.C57_nine_parameters_asymmetric"
   ],
   "note": ""
  },
  {
   "property": "C58",
   "status": "proved",
   "theorems": [
    "SolidsPy.C58_beam2D",
    "SolidsPy.C58_beam2DU",
    "SolidsPy.C58_beam2DU_horizontal"
   ],
   "note": ""
  },
  {
   "property": "C59",
   "status": "proved",
   "theorems": [
    "SolidsPy.C59_raises",
    "SolidsPy.C59_tables",
    "SolidsPy.C59_only_two_to_ten"
   ],
   "note": ""
  },
  {
   "property": "C60",
   "status": "proved",
   "theorems": [
    "SolidsPy.C60_exact",
    "SolidsPy.C60_sharp"
   ],
   "note": ""
  },
  {
   "property": "C61",
   "status": "proved",
   "theorems": [
    "SolidsPy.C61_points",
    "SolidsPy.C61_raises",
    "SolidsPy.C61_product"
   ],
   "note": ""
  },
  {
   "property": "C62",
   "status": "proved",
   "theorems": [
    "SolidsPy.C62_exact",
    "SolidsPy.C62_weights"
   ],
   "note": ""
  },
  {
   "property": "C63",
   "status": "proved",
   "theorems": [
    "SolidsPy.C63_raises",
    "SolidsPy.C63_tables",
    "SolidsPy.C63_exact",
    "SolidsPy.C63_symmetric"
   ],
   "note": ""
  },
  {
   "property": "C64",
   "status": "proved",
   "theorems": [
    "SolidsPy.C64_raises",
    "SolidsPy.C64_tables",
    "SolidsPy.C64_exact",
    "SolidsPy.C64_symmetric"
   ],
   "note": ""
  },
  {
   "property": "C65",
   "status": "proved",
   "theorems": [
    "SolidsPy.C65_elements",
    "SolidsPy.C65_used"
   ],
   "note": ""
  },
  {
   "property": "C66",
   "status": "proved",
   "theorems": [
    "SolidsPy.C66_cell",
    "SolidsPy.C66_area",
    "SolidsPy.C66_total",
    "SolidsPy.C66_inside",
    "SolidsPy.C66_corners",
    "SolidsPy.C66_accepted_iff"
   ],
   "note": ""
  },
  {
   "property": "C67",
   "status": "proved",
   "theorems": [
    "SolidsPy.C67_directed_once",
    "SolidsPy.C67_conforming"
   ],
   "note": ""
  },
  {
   "property": "C68",
   "status": "proved",
   "theorems": [
    "SolidsPy.C68_elements",
    "SolidsPy.C68_any",
    "SolidsPy.C68_unknown",
    "SolidsPy.C68_chain"
   ],
   "note": ""
  },
  {
   "property": "C69",
   "status": "proved",
   "theorems": [
    "SolidsPy.C69_nodes"
   ],
   "note": ""
  },
  {
   "property": "C70",
   "status": "proved",
   "theorems": [
    "SolidsPy.C70_effect",
    "SolidsPy.C70_success",
    "SolidsPy.C70_order_free",
    "SolidsPy.C70_twice",
    "SolidsPy.C70_later_wins"
   ],
   "note": ""
  },
  {
   "property": "C71",
   "status": "proved",
   "theorems": [
    "SolidsPy.C71_shares",
    "SolidsPy.C71_no_line",
    "SolidsPy.C71_order"
   ],
   "note": ""
  },
  {
   "property": "C72",
   "status": "proved",
   "theorems": [
    "SolidsPy.C72_total"
   ],
   "note": ""
  },
  {
   "property": "C73",
   "status": "proved",
   "theorems": [
    "SolidsPy.C73_element",
    "SolidsPy.C73_structural",
    "SolidsPy.C73_mesh"
   ],
   "note": ""
  },
  {
   "property": "C74",
   "status": "proved",
   "theorems": [
    "SolidsPy.C74_strain",
    "SolidsPy.C74_stress"
   ],
   "note": ""
  },
  {
   "property": "C75",
   "status": "proved",
   "theorems": [
    "SolidsPy.C75_formula",
    "SolidsPy.C75_not_recovered"
   ],
   "note": ""
  },
  {
   "property": "C76",
   "status": "proved",
   "theorems": [
    "SolidsPy.C76_stress"
   ],
   "note": ""
  },
  {
   "property": "C77",
   "status": "proved",
   "theorems": [
    "SolidsPy.C77_orphans",
    "SolidsPy.C77_types",
    "SolidsPy.C77_two_columns",
    "SolidsPy.C77_density",
    "SolidsPy.C77_quad9"
   ],
   "note": ""
  },
  {
   "property": "C78",
   "status": "partial",
   "theorems": [
    "SolidsPy.C78_abscissa_partial",
    "SolidsPy.C78_columns_equal",
    "SolidsPy.C78_wrong"
   ],
   "note": "False of the code: both columns of the second output are computed from the x coordinates (femutil.py:709-710, 741-742, 773-774). Proved: the first column is right, the second always repeats it, and so the position is wrong off the line x = y."
  },
  {
   "property": "C79",
   "status": "proved",
   "theorems": [
    "SolidsPy.C79_general",
    "SolidsPy.C79_invariants",
    "SolidsPy.C79_diagonal",
    "SolidsPy.C79_null"
   ],
   "note": ""
  },
  {
   "property": "C80",
   "status": "proved",
   "theorems": [
    "SolidsPy.C80_rows",
    "SolidsPy.C80_total",
    "SolidsPy.C80_invariants"
   ],
   "note": ""
  },
  {
   "property": "C81",
   "status": "proved",
   "theorems": [
    "SolidsPy.C81_widths",
    "SolidsPy.C81_equal_areas",
    "SolidsPy.C81_stresses",
    "SolidsPy.C81_unstressed"
   ],
   "note": ""
  },
  {
   "property": "C82",
   "status": "proved",
   "theorems": [
    "SolidsPy.C82_prints_iff",
    "SolidsPy.C82_plots",
    "SolidsPy.C82_beam2DU_fails"
   ],
   "note": ""
  },
  {
   "property": "C83",
   "status": "proved",
   "theorems": [
    "SolidsPy.C83_numbers",
    "SolidsPy.C83_length",
    "SolidsPy.C83_total",
    "SolidsPy.C83_columns"
   ],
   "note": ""
  },
  {
   "property": "C84",
   "status": "partial",
   "theorems": [
    "SolidsPy.C84_agrees_iff_partial",
    "SolidsPy.C84_counterexample"
   ],
   "note": "False of the code in general: reassign_dof_bloch counts positions among the degrees of freedom instead of looking the reference up. C84_agrees_iff_partial says exactly when an image gets the number of its reference; C84_counterexample is the docstring mesh."
  },
  {
   "property": "C85",
   "status": "proved",
   "theorems": [
    "SolidsPy.C85_kept",
    "SolidsPy.C85_images",
    "SolidsPy.C85_range",
    "SolidsPy.C85_returns",
    "SolidsPy.C85_wrong_wave",
    "SolidsPy.C85_no_entry",
    "SolidsPy.C85_too_many"
   ],
   "note": ""
  },
  {
   "property": "C86",
   "status": "proved",
   "theorems": [
    "SolidsPy.C86_orthogonal",
    "SolidsPy.C86_diagonal",
    "SolidsPy.C86_injective",
    "SolidsPy.C86_reassigned"
   ],
   "note": ""
  },
  {
   "property": "C87",
   "status": "proved",
   "theorems": [
    "SolidsPy.C87_opposite",
    "SolidsPy.C87_periodic",
    "SolidsPy.C87_translation",
    "SolidsPy.C87_zero"
   ],
   "note": ""
  },
  {
   "property": "C88",
   "status": "proved",
   "theorems": [
    "SolidsPy.C88_semidefinite",
    "SolidsPy.C88_definite",
    "SolidsPy.C88_opposite"
   ],
   "note": ""
  },
  {
   "property": "C89",
   "status": "proved",
   "theorems": [
    "SolidsPy.C89_gui_eq_auto",
    "SolidsPy.C89_gui_eq_auto_strains"
   ],
   "note": ""
  },
  {
   "property": "C90",
   "status": "proved",
   "theorems": [
    "SolidsPy.C90_routine_matches_table"
   ],
   "note": ""
  },
  {
   "property": "C91",
   "status": "proved",
   "theorems": [
    "SolidsPy.C91_internal_balance",
    "SolidsPy.C91_reactions"
   ],
   "note": ""
  },
  {
   "property": "C92",
   "status": "proved",
   "theorems": [
    "SolidsPy.C92_method_of_joints",
    "SolidsPy.C92_stress_exists"
   ],
   "note": ""
  },
  {
   "property": "C93",
   "status": "proved",
   "theorems": [
    "SolidsPy.C93_solids_auto_returns",
    "SolidsPy.C93_silent",
    "SolidsPy.C93_elements",
    "SolidsPy.C93_stable_iff"
   ],
   "note": ""
  },
  {
   "property": "C94",
   "status": "proved",
   "theorems": [
    "SolidsPy.C94_quad4_null_space",
    "SolidsPy.C94_quadratic_null_space",
    "SolidsPy.C94_tet4_null_space",
    "SolidsPy.C94_hex8_null_space"
   ],
   "note": ""
  },
  {
   "property": "C95",
   "status": "proved",
   "theorems": [
    "SolidsPy.C95_zero_energy",
    "SolidsPy.C95_stable_iff",
    "SolidsPy.C95_two_pins",
    "SolidsPy.C95_pin_roller",
    "SolidsPy.C95_solids_auto"
   ],
   "note": ""
  },
  {
   "property": "C96",
   "status": "proved",
   "theorems": [
    "SolidsPy.C96_quad4_forces",
    "SolidsPy.C96_tri3_forces",
    "SolidsPy.C96_uniform_strain",
    "SolidsPy.C96_interior"
   ],
   "note": ""
  },
  {
   "property": "C97",
   "status": "proved",
   "theorems": [
    "SolidsPy.C97_mesh",
    "SolidsPy.C97_solids_auto",
    "SolidsPy.C97_forces",
    "SolidsPy.C97_uniform_state",
    "SolidsPy.C97_tension"
   ],
   "note": ""
  },
  {
   "property": "C98",
   "status": "proved",
   "theorems": [
    "SolidsPy.C98_least_potential",
    "SolidsPy.C98_only_minimiser",
    "SolidsPy.C98_clapeyron"
   ],
   "note": ""
  },
  {
   "property": "C99",
   "status": "proved",
   "theorems": [
    "SolidsPy.C99_stable_more_supports",
    "SolidsPy.C99_more_supports",
    "SolidsPy.C99_stable_more_elements",
    "SolidsPy.C99_more_elements",
    "SolidsPy.C99_stable_stiffer_materials",
    "SolidsPy.C99_stiffer_materials",
    "SolidsPy.C99_modulus_scaling"
   ],
   "note": ""
  },
  {
   "property": "C100",
   "status": "proved",
   "theorems": [
    "SolidsPy.C100_strain_nodes_returns",
    "SolidsPy.C100_same_run",
    "SolidsPy.C100_driver",
    "SolidsPy.C100_uniform_state",
    "SolidsPy.C100_tension"
   ],
   "note": ""
  },
  {
   "property": "C101",
   "status": "proved",
   "theorems": [
    "SolidsPy.C101_layout",
    "SolidsPy.C101_table",
    "SolidsPy.C101_same_fields"
   ],
   "note": ""
  },
  {
   "property": "C102",
   "status": "proved",
   "theorems": [
    "SolidsPy.C102_float",
    "SolidsPy.C102_integer",
    "SolidsPy.C102_rejects"
   ],
   "note": ""
  },
  {
   "property": "C103",
   "status": "proved",
   "theorems": [
    "SolidsPy.C103_floats",
    "SolidsPy.C103_exact",
    "SolidsPy.C103_elements",
    "SolidsPy.C103_stable"
   ],
   "note": ""
  },
  {
   "property": "C104",
   "status": "proved",
   "theorems": [
    "SolidsPy.C104_others",
    "SolidsPy.C104_contents",
    "SolidsPy.C104_readin"
   ],
   "note": ""
  },
  {
   "property": "C105",
   "status": "proved",
   "theorems": [
    "SolidsPy.C105_readin",
    "SolidsPy.C105_same_as_memory",
    "SolidsPy.C105_equilibrium",
    "SolidsPy.C105_missing"
   ],
   "note": ""
  },
  {
   "property": "C106",
   "status": "proved",
   "theorems": [
    "SolidsPy.C106_members",
    "SolidsPy.C106_numbered_from_one",
    "SolidsPy.C106_tension",
    "SolidsPy.C106_plain",
    "SolidsPy.C106_unstressed"
   ],
   "note": ""
  },
  {
   "property": "C107",
   "status": "proved",
   "theorems": [
    "SolidsPy.C107_draws",
    "SolidsPy.C107_default",
    "SolidsPy.C107_saved",
    "SolidsPy.C107_returns_iff",
    "SolidsPy.C107_fields"
   ],
   "note": ""
  },
  {
   "property": "C108",
   "status": "proved",
   "theorems": [
    "SolidsPy.C108_supported_iff",
    "SolidsPy.C108_two_supports",
    "SolidsPy.C108_singular",
    "SolidsPy.C108_balance_needed",
    "SolidsPy.C108_equilibrium_iff",
    "SolidsPy.C108_balanced_run",
    "SolidsPy.C108_up_to_motion",
    "SolidsPy.C108_silent"
   ],
   "note": ""
  },
  {
   "property": "C109",
   "status": "proved",
   "theorems": [
    "SolidsPy.C109_accepted",
    "SolidsPy.C109_stable",
    "SolidsPy.C109_displacements",
    "SolidsPy.C109_returns",
    "SolidsPy.C109_shifted"
   ],
   "note": ""
  },
  {
   "property": "C110",
   "status": "proved",
   "theorems": [
    "SolidsPy.C110_accepted",
    "SolidsPy.C110_stable",
    "SolidsPy.C110_displacements",
    "SolidsPy.C110_returns"
   ],
   "note": ""
  },
  {
   "property": "C111",
   "status": "proved",
   "theorems": [
    "SolidsPy.C111_reads",
    "SolidsPy.C111_given",
    "SolidsPy.C111_version",
    "SolidsPy.C111_four_files",
    "SolidsPy.C111_chosen",
    "SolidsPy.C111_typed_needs_slash",
    "SolidsPy.C111_strains"
   ],
   "note": ""
  },
  {
   "property": "C112",
   "status": "proved",
   "theorems": [
    "SolidsPy.C112_energy",
    "SolidsPy.C112_gap",
    "SolidsPy.C112_softer",
    "SolidsPy.C112_nearest"
   ],
   "note": ""
  },
  {
   "property": "C113",
   "status": "proved",
   "theorems": [
    "SolidsPy.C113_plane",
    "SolidsPy.C113_solid",
    "SolidsPy.C113_axi"
   ],
   "note": ""
  },
  {
   "property": "C114",
   "status": "proved",
   "theorems": [
    "SolidsPy.C114_form",
    "SolidsPy.C114_definite_iff",
    "SolidsPy.C114_definite_with_bars",
    "SolidsPy.C114_total",
    "SolidsPy.C114_grid"
   ],
   "note": ""
  },
  {
   "property": "C115",
   "status": "proved",
   "theorems": [
    "SolidsPy.C115_null",
    "SolidsPy.C115_translations",
    "SolidsPy.C115_definite_iff",
    "SolidsPy.C115_frequencies",
    "SolidsPy.C115_opposite"
   ],
   "note": ""
  },
  {
   "property": "C116",
   "status": "proved",
   "theorems": [
    "SolidsPy.C116_modes",
    "SolidsPy.C116_frequencies",
    "SolidsPy.C116_shapes",
    "SolidsPy.C116_bounds",
    "SolidsPy.C116_converges",
    "SolidsPy.C116_assembled"
   ],
   "note": ""
  },
  {
   "property": "C117",
   "status": "proved",
   "theorems": [
    "SolidsPy.C117_assembled",
    "SolidsPy.C117_solved",
    "SolidsPy.C117_unique",
    "SolidsPy.C117_stable_iff"
   ],
   "note": ""
  },
  {
   "property": "C118",
   "status": "proved",
   "theorems": [
    "SolidsPy.C118_returns",
    "SolidsPy.C118_exact",
    "SolidsPy.C118_tip",
    "SolidsPy.C118_curve"
   ],
   "note": ""
  },
  {
   "property": "C119",
   "status": "proved",
   "theorems": [
    "SolidsPy.C119_modes",
    "SolidsPy.C119_minmax",
    "SolidsPy.C119_unique",
    "SolidsPy.C119_nonneg",
    "SolidsPy.C119_positive_iff",
    "SolidsPy.C119_static",
    "SolidsPy.C119_zero_iff",
    "SolidsPy.C119_floating",
    "SolidsPy.C119_held",
    "SolidsPy.C119_bar"
   ],
   "note": ""
  },
  {
   "property": "C120",
   "status": "proved",
   "theorems": [
    "SolidsPy.C120_supports",
    "SolidsPy.C120_materials",
    "SolidsPy.C120_proportional",
    "SolidsPy.C120_place",
    "SolidsPy.C120_size"
   ],
   "note": ""
  },
  {
   "property": "C121",
   "status": "proved",
   "theorems": [
    "SolidsPy.C121_curves",
    "SolidsPy.C121_beam2DU",
    "SolidsPy.C121_beam2D",
    "SolidsPy.C121_least"
   ],
   "note": ""
  },
  {
   "property": "C122",
   "status": "proved",
   "theorems": [
    "SolidsPy.C122_energies",
    "SolidsPy.C122_definite_iff",
    "SolidsPy.C122_laden_iff",
    "SolidsPy.C122_modes",
    "SolidsPy.C122_minmax",
    "SolidsPy.C122_nonneg",
    "SolidsPy.C122_positive_iff"
   ],
   "note": ""
  },
  {
   "property": "C123",
   "status": "proved",
   "theorems": [
    "SolidsPy.C123_modes",
    "SolidsPy.C123_lower",
    "SolidsPy.C123_upper"
   ],
   "note": ""
  },
  {
   "property": "C124",
   "status": "proved",
   "theorems": [
    "SolidsPy.C124_forms",
    "SolidsPy.C124_balance",
    "SolidsPy.C124_equilibrium",
    "SolidsPy.C124_stable",
    "SolidsPy.C124_stays_stable",
    "SolidsPy.C124_run",
    "SolidsPy.C124_frequencies"
   ],
   "note": ""
  },
  {
   "property": "C125",
   "status": "proved",
   "theorems": [
    "SolidsPy.C125_zero_energy",
    "SolidsPy.C125_true_motions",
    "SolidsPy.C125_held_iff",
    "SolidsPy.C125_stable_iff",
    "SolidsPy.C125_clamped",
    "SolidsPy.C125_solved",
    "SolidsPy.C125_zero_frequencies",
    "SolidsPy.C125_floating"
   ],
   "note": ""
  },
  {
   "property": "C126",
   "status": "proved",
   "theorems": [
    "SolidsPy.C126_forms",
    "SolidsPy.C126_balance",
    "SolidsPy.C126_node",
    "SolidsPy.C126_equilibrium_iff",
    "SolidsPy.C126_mechanism",
    "SolidsPy.C126_stable_iff",
    "SolidsPy.C126_run",
    "SolidsPy.C126_stress",
    "SolidsPy.C126_energies",
    "SolidsPy.C126_frequencies"
   ],
   "note": ""
  },
  {
   "property": "C127",
   "status": "proved",
   "theorems": [
    "SolidsPy.C127_tensors",
    "SolidsPy.C127_returns",
    "SolidsPy.C127_turned",
    "SolidsPy.C127_magnified",
    "SolidsPy.C127_principal"
   ],
   "note": ""
  },
  {
   "property": "C128",
   "status": "proved",
   "theorems": [
    "SolidsPy.C128_forms",
    "SolidsPy.C128_stable_iff",
    "SolidsPy.C128_equilibrium",
    "SolidsPy.C128_run",
    "SolidsPy.C128_turned",
    "SolidsPy.C128_magnified",
    "SolidsPy.C128_textbook",
    "SolidsPy.C128_frequencies"
   ],
   "note": ""
  },
  {
   "property": "C129",
   "status": "proved",
   "theorems": [
    "SolidsPy.C129_superposition",
    "SolidsPy.C129_reciprocity",
    "SolidsPy.C129_stored",
    "SolidsPy.C129_minimum_iff",
    "SolidsPy.C129_minimum",
    "SolidsPy.C129_castigliano",
    "SolidsPy.C129_castigliano_point",
    "SolidsPy.C129_stable_iff",
    "SolidsPy.C129_stronger",
    "SolidsPy.C129_frequencies",
    "SolidsPy.C129_supports"
   ],
   "note": ""
  },
  {
   "property": "C130",
   "status": "proved",
   "theorems": [
    "SolidsPy.C130_success",
    "SolidsPy.C130_no_load",
    "SolidsPy.C130_nodes",
    "SolidsPy.C130_elements",
    "SolidsPy.C130_tags",
    "SolidsPy.C130_materials",
    "SolidsPy.C130_loads",
    "SolidsPy.C130_total",
    "SolidsPy.C130_orientation",
    "SolidsPy.C130_others"
   ],
   "note": ""
  },
  {
   "property": "C131",
   "status": "proved",
   "theorems": [
    "SolidsPy.C131_normal",
    "SolidsPy.C131_shear",
    "SolidsPy.C131_shear_iff",
    "SolidsPy.C131_corrected",
    "SolidsPy.C131_equilibrium",
    "SolidsPy.C131_resultant"
   ],
   "note": ""
  },
  {
   "property": "C132",
   "status": "proved",
   "theorems": [
    "SolidsPy.C132_total_load",
    "SolidsPy.C132_supports",
    "SolidsPy.C132_support_distance",
    "SolidsPy.C132_solved",
    "SolidsPy.C132_scaled",
    "SolidsPy.C132_five_columns",
    "SolidsPy.C132_stale_call"
   ],
   "note": ""
  },
  {
   "property": "C133",
   "status": "proved",
   "theorems": [
    "SolidsPy.C133_energy",
    "SolidsPy.C133_softer",
    "SolidsPy.C133_clamped"
   ],
   "note": ""
  },
  {
   "property": "C134",
   "status": "proved",
   "theorems": [
    "SolidsPy.C134_runs",
    "SolidsPy.C134_reactions"
   ],
   "note": ""
  },
  {
   "property": "C135",
   "status": "proved",
   "theorems": [
    "SolidsPy.C135_too_small",
    "SolidsPy.C135_assembled",
    "SolidsPy.C135_solved",
    "SolidsPy.C135_unique",
    "SolidsPy.C135_stable_iff"
   ],
   "note": ""
  },
  {
   "property": "C136",
   "status": "proved",
   "theorems": [
    "SolidsPy.C136_internal_balance",
    "SolidsPy.C136_reactions",
    "SolidsPy.C136_zero_energy",
    "SolidsPy.C136_stable_iff",
    "SolidsPy.C136_three_pins",
    "SolidsPy.C136_hinge_not_enough",
    "SolidsPy.C136_solved"
   ],
   "note": ""
  },
  {
   "property": "C137",
   "status": "proved",
   "theorems": [
    "SolidsPy.C137_mirrored",
    "SolidsPy.C137_not_reversed"
   ],
   "note": ""
  },
  {
   "property": "C138",
   "status": "proved",
   "theorems": [
    "SolidsPy.C138_accepted",
    "SolidsPy.C138_stable",
    "SolidsPy.C138_displacements",
    "SolidsPy.C138_returns"
   ],
   "note": ""
  },
  {
   "property": "C139",
   "status": "proved",
   "theorems": [
    "SolidsPy.C139_exists",
    "SolidsPy.C139_accepted",
    "SolidsPy.C139_unfolds",
    "SolidsPy.C139_folds",
    "SolidsPy.C139_stable",
    "SolidsPy.C139_stable_iff",
    "SolidsPy.C139_displacements",
    "SolidsPy.C139_half_suffices"
   ],
   "note": ""
  },
  {
   "property": "C140",
   "status": "proved",
   "theorems": [
    "SolidsPy.C140_runs_iff",
    "SolidsPy.C140_readable",
    "SolidsPy.C140_nodes",
    "SolidsPy.C140_tables",
    "SolidsPy.C140_others",
    "SolidsPy.C140_solved",
    "SolidsPy.C140_whole",
    "SolidsPy.C140_reactions"
   ],
   "note": ""
  },
  {
   "property": "C141",
   "status": "proved",
   "theorems": [
    "SolidsPy.C141_null_space",
    "SolidsPy.C141_axial_balance",
    "SolidsPy.C141_reactions",
    "SolidsPy.C141_zero_energy",
    "SolidsPy.C141_stable_iff",
    "SolidsPy.C141_solved"
   ],
   "note": ""
  },
  {
   "property": "C142",
   "status": "proved",
   "theorems": [
    "SolidsPy.C142_members",
    "SolidsPy.C142_stable_iff",
    "SolidsPy.C142_displacements",
    "SolidsPy.C142_returns"
   ],
   "note": ""
  },
  {
   "property": "C143",
   "status": "proved",
   "theorems": [
    "SolidsPy.C143_coupling",
    "SolidsPy.C143_band",
    "SolidsPy.C143_grid"
   ],
   "note": ""
  },
  {
   "property": "C144",
   "status": "proved",
   "theorems": [
    "SolidsPy.C144_waves",
    "SolidsPy.C144_frequencies",
    "SolidsPy.C144_returns",
    "SolidsPy.C144_folding",
    "SolidsPy.C144_bounds",
    "SolidsPy.C144_speed"
   ],
   "note": ""
  },
  {
   "property": "C145",
   "status": "proved",
   "theorems": [
    "SolidsPy.C145_patch_test",
    "SolidsPy.C145_patch_strains",
    "SolidsPy.C145_square",
    "SolidsPy.C145_square_strains",
    "SolidsPy.C145_files",
    "SolidsPy.C145_magnitude_odd",
    "SolidsPy.C145_magnitude_even",
    "SolidsPy.C145_magnitude_vector",
    "SolidsPy.C145_tutorial"
   ],
   "note": ""
  },
  {
   "property": "C146",
   "status": "proved",
   "theorems": [
    "SolidsPy.C146_grid",
    "SolidsPy.C146_point",
    "SolidsPy.C146_interior",
    "SolidsPy.C146_corner",
    "SolidsPy.C146_tri6",
    "SolidsPy.C146_tri6_nearest",
    "SolidsPy.C146_quad4_nearest"
   ],
   "note": ""
  },
  {
   "property": "C147",
   "status": "proved",
   "theorems": [
    "SolidsPy.C147_elastic",
    "SolidsPy.C147_balances",
    "SolidsPy.C147_least_work",
    "SolidsPy.C147_unit_load",
    "SolidsPy.C147_stable_iff",
    "SolidsPy.C147_maxwell",
    "SolidsPy.C147_determinate",
    "SolidsPy.C147_simple_truss",
    "SolidsPy.C147_notebook"
   ],
   "note": ""
  },
  {
   "property": "C148",
   "status": "proved",
   "theorems": [
    "SolidsPy.C148_bending",
    "SolidsPy.C148_ratio",
    "SolidsPy.C148_locking",
    "SolidsPy.C148_quad9",
    "SolidsPy.C148_quad9_exact"
   ],
   "note": ""
  },
  {
   "property": "C149",
   "status": "proved",
   "theorems": [
    "SolidsPy.C149_modes",
    "SolidsPy.C149_order",
    "SolidsPy.C149_shapes",
    "SolidsPy.C149_frequencies",
    "SolidsPy.C149_bounds",
    "SolidsPy.C149_converges",
    "SolidsPy.C149_assembled"
   ],
   "note": ""
  },
  {
   "property": "C150",
   "status": "proved",
   "theorems": [
    "SolidsPy.C150_frequencies",
    "SolidsPy.C150_waves",
    "SolidsPy.C150_between",
    "SolidsPy.C150_axis",
    "SolidsPy.C150_bound",
    "SolidsPy.C150_limit",
    "SolidsPy.C150_returns",
    "SolidsPy.C150_folding"
   ],
   "note": ""
  },
  {
   "property": "C151",
   "status": "proved",
   "theorems": [
    "SolidsPy.C151_uniform_strain",
    "SolidsPy.C151_interior",
    "SolidsPy.C151_exact"
   ],
   "note": ""
  },
  {
   "property": "C152",
   "status": "proved",
   "theorems": [
    "SolidsPy.C152_opposite",
    "SolidsPy.C152_quad_jacobian",
    "SolidsPy.C152_place",
    "SolidsPy.C152_convex_iff",
    "SolidsPy.C152_injective",
    "SolidsPy.C152_tri3",
    "SolidsPy.C152_tri6",
    "SolidsPy.C152_quad4",
    "SolidsPy.C152_quad9",
    "SolidsPy.C152_quad8",
    "SolidsPy.C152_tet4",
    "SolidsPy.C152_hex8",
    "SolidsPy.C152_convex_accepted",
    "SolidsPy.C152_accepted",
    "SolidsPy.C152_finer",
    "SolidsPy.C152_dart",
    "SolidsPy.C152_axi",
    "SolidsPy.C152_axi_convex"
   ],
   "note": ""
  },
  {
   "property": "C153",
   "status": "proved",
   "theorems": [
    "SolidsPy.C153_reordered",
    "SolidsPy.C153_refused"
   ],
   "note": ""
  },
  {
   "property": "C154",
   "status": "proved",
   "theorems": [
    "SolidsPy.C154_accepted",
    "SolidsPy.C154_forces",
    "SolidsPy.C154_equilibrium",
    "SolidsPy.C154_stable",
    "SolidsPy.C154_displacements",
    "SolidsPy.C154_loads"
   ],
   "note": ""
  },
  {
   "property": "C155",
   "status": "proved",
   "theorems": [
    "SolidsPy.C155_superposition",
    "SolidsPy.C155_reciprocity",
    "SolidsPy.C155_maxwell",
    "SolidsPy.C155_stored",
    "SolidsPy.C155_minimum_iff",
    "SolidsPy.C155_minimum",
    "SolidsPy.C155_positive",
    "SolidsPy.C155_stiffer",
    "SolidsPy.C155_added",
    "SolidsPy.C155_library"
   ],
   "note": ""
  },
  {
   "property": "C156",
   "status": "proved",
   "theorems": [
    "SolidsPy.C156_element_energy",
    "SolidsPy.C156_energy",
    "SolidsPy.C156_gap",
    "SolidsPy.C156_softer",
    "SolidsPy.C156_nearest"
   ],
   "note": ""
  },
  {
   "property": "C157",
   "status": "proved",
   "theorems": [
    "SolidsPy.C157_definite_iff",
    "SolidsPy.C157_modes",
    "SolidsPy.C157_minmax",
    "SolidsPy.C157_unique",
    "SolidsPy.C157_nonneg",
    "SolidsPy.C157_positive_iff",
    "SolidsPy.C157_compare",
    "SolidsPy.C157_static",
    "SolidsPy.C157_zero_iff",
    "SolidsPy.C157_floating",
    "SolidsPy.C157_held",
    "SolidsPy.C157_revolved",
    "SolidsPy.C157_library",
    "SolidsPy.C157_vibrates"
   ],
   "note": ""
  },
  {
   "property": "C158",
   "status": "proved",
   "theorems": [
    "SolidsPy.C158_supports_as_forces",
    "SolidsPy.C158_holding",
    "SolidsPy.C158_idle_element",
    "SolidsPy.C158_user_supports",
    "SolidsPy.C158_labels"
   ],
   "note": ""
  },
  {
   "property": "C159",
   "status": "proved",
   "theorems": [
    "SolidsPy.C159_waves",
    "SolidsPy.C159_frequencies",
    "SolidsPy.C159_returns",
    "SolidsPy.C159_folding",
    "SolidsPy.C159_branches",
    "SolidsPy.C159_bounds",
    "SolidsPy.C159_long_waves"
   ],
   "note": ""
  },
  {
   "property": "C160",
   "status": "proved",
   "theorems": [
    "SolidsPy.C160_loads_iff",
    "SolidsPy.C160_assembly_iff",
    "SolidsPy.C160_row_iff",
    "SolidsPy.C160_runs_iff",
    "SolidsPy.C160_tables_iff"
   ],
   "note": ""
  },
  {
   "property": "C161",
   "status": "proved",
   "theorems": [
    "SolidsPy.C161_wellposed",
    "SolidsPy.C161_precision"
   ],
   "note": ""
  },
  {
   "property": "C162",
   "status": "proved",
   "theorems": [
    "SolidsPy.C162_residual",
    "SolidsPy.C162_error_bound",
    "SolidsPy.C162_silent",
    "SolidsPy.C162_condition",
    "SolidsPy.C162_tolerance",
    "SolidsPy.C162_returns",
    "SolidsPy.C162_blind"
   ],
   "note": ""
  },
  {
   "property": "C163",
   "status": "proved",
   "theorems": [
    "SolidsPy.Heap.C163_auto",
    "SolidsPy.Heap.C163_gui",
    "SolidsPy.Heap.C163_inputs_kept",
    "SolidsPy.Heap.C163_conditions",
    "SolidsPy.Heap.C163_session",
    "SolidsPy.Heap.C163_repeatable",
    "SolidsPy.Heap.C163_accumulate"
   ],
   "note": ""
  },
  {
   "property": "C164",
   "status": "proved",
   "theorems": [
    "SolidsPy.C164_exchange",
    "SolidsPy.C164_adjoint",
    "SolidsPy.C164_displacement",
    "SolidsPy.C164_compliance",
    "SolidsPy.C164_tangent",
    "SolidsPy.C164_castigliano",
    "SolidsPy.C164_unit_load"
   ],
   "note": ""
  },
  {
   "property": "C165",
   "status": "proved",
   "theorems": [
    "SolidsPy.C165_assembly",
    "SolidsPy.C165_run",
    "SolidsPy.C165_truss",
    "SolidsPy.C165_first_order",
    "SolidsPy.C165_unit_zero",
    "SolidsPy.C165_bar_exact",
    "SolidsPy.C165_run_exact",
    "SolidsPy.C165_bar"
   ],
   "note": ""
  },
  {
   "property": "C166",
   "status": "proved",
   "theorems": [
    "SolidsPy.C166_frames",
    "SolidsPy.C166_user"
   ],
   "note": ""
  },
  {
   "property": "C167",
   "status": "proved",
   "theorems": [
    "SolidsPy.C167_solid",
    "SolidsPy.C167_axi",
    "SolidsPy.C167_plane",
    "SolidsPy.C167_beam2DU",
    "SolidsPy.C167_beam2D",
    "SolidsPy.C167_frames",
    "SolidsPy.C167_user",
    "SolidsPy.C167_library"
   ],
   "note": ""
  },
  {
   "property": "C168",
   "status": "proved",
   "theorems": [
    "SolidsPy.C168_user",
    "SolidsPy.C168_truss",
    "SolidsPy.C168_plane",
    "SolidsPy.C168_precision",
    "SolidsPy.C168_library",
    "SolidsPy.C168_frames",
    "SolidsPy.C168_bound",
    "SolidsPy.C168_bound_frames",
    "SolidsPy.C168_bound_user"
   ],
   "note": ""
  },
  {
   "property": "C169",
   "status": "proved",
   "theorems": [
    "SolidsPy.C169_frame_elements",
    "SolidsPy.C169_user_elements",
    "SolidsPy.C169_frame_nodes",
    "SolidsPy.C169_user_nodes",
    "SolidsPy.C169_plane_matrices",
    "SolidsPy.C169_frame_matrices",
    "SolidsPy.C169_user_matrices",
    "SolidsPy.C169_frame_band",
    "SolidsPy.C169_user_band",
    "SolidsPy.C169_modes"
   ],
   "note": ""
  },
  {
   "property": "C170",
   "status": "proved",
   "theorems": [
    "SolidsPy.C170_materials",
    "SolidsPy.C170_shares",
    "SolidsPy.C170_sign",
    "SolidsPy.C170_frames",
    "SolidsPy.C170_proportional",
    "SolidsPy.C170_user",
    "SolidsPy.C170_library"
   ],
   "note": ""
  },
  {
   "property": "C171",
   "status": "proved",
   "theorems": [
    "SolidsPy.C171_frames",
    "SolidsPy.C171_frame_displacement",
    "SolidsPy.C171_frame_compliance",
    "SolidsPy.C171_user",
    "SolidsPy.C171_library"
   ],
   "note": ""
  },
  {
   "property": "C172",
   "status": "proved",
   "theorems": [
    "SolidsPy.C172_matrix",
    "SolidsPy.C172_returns",
    "SolidsPy.C172_combination",
    "SolidsPy.C172_rigid",
    "SolidsPy.C172_bound",
    "SolidsPy.C172_superposition",
    "SolidsPy.C172_solver"
   ],
   "note": ""
  },
  {
   "property": "C173",
   "status": "proved",
   "theorems": [
    "SolidsPy.C173_frame_stable_iff",
    "SolidsPy.C173_frame",
    "SolidsPy.C173_user_stable_iff",
    "SolidsPy.C173_user",
    "SolidsPy.C173_plane_matrices",
    "SolidsPy.C173_frame_matrices",
    "SolidsPy.C173_user_matrices",
    "SolidsPy.C173_frequencies",
    "SolidsPy.C173_mode_iff"
   ],
   "note": ""
  },
  {
   "property": "C174",
   "status": "proved",
   "theorems": [
    "SolidsPy.C174_returns_iff",
    "SolidsPy.C174_combination",
    "SolidsPy.C174_rigid",
    "SolidsPy.C174_superposition",
    "SolidsPy.C174_solver",
    "SolidsPy.C174_placement"
   ],
   "note": ""
  },
  {
   "property": "C175",
   "status": "proved",
   "theorems": [
    "SolidsPy.C175_extremes",
    "SolidsPy.C175_accuracy",
    "SolidsPy.C175_stable",
    "SolidsPy.C175_axes",
    "SolidsPy.C175_shear",
    "SolidsPy.C175_field",
    "SolidsPy.C175_strains",
    "SolidsPy.C175_jump",
    "SolidsPy.C175_solver"
   ],
   "note": ""
  },
  {
   "property": "C176",
   "status": "proved",
   "theorems": [
    "SolidsPy.C176_bar",
    "SolidsPy.C176_triangle",
    "SolidsPy.C176_iff",
    "SolidsPy.C176_elements",
    "SolidsPy.C176_mesh",
    "SolidsPy.C176_beam",
    "SolidsPy.C176_frame",
    "SolidsPy.C176_user"
   ],
   "note": ""
  },
  {
   "property": "C177",
   "status": "proved",
   "theorems": [
    "SolidsPy.C177_field",
    "SolidsPy.C177_single",
    "SolidsPy.C177_joint",
    "SolidsPy.C177_tensions",
    "SolidsPy.C177_user_field",
    "SolidsPy.C177_user_single",
    "SolidsPy.C177_frame_field",
    "SolidsPy.C177_frame_single"
   ],
   "note": ""
  },
  {
   "property": "C178",
   "status": "proved",
   "theorems": [
    "SolidsPy.C178_dunkerley",
    "SolidsPy.C178_iteration",
    "SolidsPy.C178_frame_dunkerley",
    "SolidsPy.C178_frame_iteration",
    "SolidsPy.C178_user_dunkerley",
    "SolidsPy.C178_user_iteration"
   ],
   "note": ""
  },
  {
   "property": "C179",
   "status": "proved",
   "theorems": [
    "SolidsPy.C179_waves",
    "SolidsPy.C179_floating",
    "SolidsPy.C179_clamped",
    "SolidsPy.C179_mesh",
    "SolidsPy.C179_frame_waves",
    "SolidsPy.C179_frame_floating",
    "SolidsPy.C179_frame_clamped"
   ],
   "note": ""
  },
  {
   "property": "C180",
   "status": "proved",
   "theorems": [
    "SolidsPy.C180_exists",
    "SolidsPy.C180_continuous",
    "SolidsPy.C180_symmetric",
    "SolidsPy.C180_frame_exists",
    "SolidsPy.C180_frame_continuous",
    "SolidsPy.C180_frame_symmetric"
   ],
   "note": ""
  },
  {
   "property": "C181",
   "status": "proved",
   "theorems": [
    "SolidsPy.C181_materials",
    "SolidsPy.C181_proportional",
    "SolidsPy.C181_size"
   ],
   "note": ""
  },
  {
   "property": "C182",
   "status": "proved",
   "theorems": [
    "SolidsPy.C182_slope",
    "SolidsPy.C182_offsets",
    "SolidsPy.C182_flat",
    "SolidsPy.C182_frame_slope",
    "SolidsPy.C182_frame_flat"
   ],
   "note": ""
  },
  {
   "property": "C183",
   "status": "proved",
   "theorems": [
    "SolidsPy.C183_zero",
    "SolidsPy.C183_speed",
    "SolidsPy.C183_gap",
    "SolidsPy.C183_mechanisms",
    "SolidsPy.C183_frame_mechanisms",
    "SolidsPy.C183_frame_speed"
   ],
   "note": ""
  },
  {
   "property": "C184",
   "status": "proved",
   "theorems": [
    "SolidsPy.C184_steepness",
    "SolidsPy.C184_sampled",
    "SolidsPy.C184_frame_steepness",
    "SolidsPy.C184_frame_sampled"
   ],
   "note": ""
  },
  {
   "property": "C185",
   "status": "proved",
   "theorems": [
    "SolidsPy.C185_speed",
    "SolidsPy.C185_frame_speed"
   ],
   "note": ""
  },
  {
   "property": "C186",
   "status": "proved",
   "theorems": [
    "SolidsPy.C186_bending",
    "SolidsPy.C186_velocity",
    "SolidsPy.C186_frame_bending",
    "SolidsPy.C186_frame_velocity"
   ],
   "note": ""
  }
 ]
}
