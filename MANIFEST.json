{
 "claims": [
  {
   "property": "C01",
   "status": "proved",
   "theorems": [
    "Schnek.Props.C01_iterator_enumerates_range",
    "Schnek.Props.C01_inside_iff"
   ],
   "note": ""
  },
  {
   "property": "C02",
   "status": "proved",
   "theorems": [
    "Schnek.Props.C02_forEachC",
    "Schnek.Props.C02_forEachF",
    "Schnek.Props.C02_forEach_empty"
   ],
   "note": ""
  },
  {
   "property": "C03",
   "status": "partial",
   "theorems": [
    "Schnek.Props.C03_violated_empty_range_is_iterated",
    "Schnek.Props.C03_iterator_any_range_partial"
   ],
   "note": "The unchanged code violates the property: the iterator of an empty range yields one index outside of the range (C03_violated_...). C03_iterator_any_range_partial describes what the iterator yields for every range; the missing part is false."
  },
  {
   "property": "C04",
   "status": "proved",
   "theorems": [
    "Schnek.Props.C04_c_order_bijection"
   ],
   "note": ""
  },
  {
   "property": "C05",
   "status": "proved",
   "theorems": [
    "Schnek.Props.C05_fortran_order_bijection"
   ],
   "note": ""
  },
  {
   "property": "C06",
   "status": "proved",
   "theorems": [
    "Schnek.Props.C06_stride",
    "Schnek.Props.C06_raw_order_is_forEach_order"
   ],
   "note": ""
  },
  {
   "property": "C07",
   "status": "proved",
   "theorems": [
    "Schnek.Props.C07_create",
    "Schnek.Props.C07_read_defined",
    "Schnek.Props.C07_write_read",
    "Schnek.Props.C07_write_history",
    "Schnek.Props.C07_fill",
    "Schnek.Props.C07_opAssign_same_storage",
    "Schnek.Props.C07_opAssign_other_storage"
   ],
   "note": ""
  },
  {
   "property": "C08",
   "status": "proved",
   "theorems": [
    "Schnek.Props.C08_debug_inside",
    "Schnek.Props.C08_debug_outside",
    "Schnek.Props.C08_assert",
    "Schnek.Props.C08_checked_access_in_buffer"
   ],
   "note": ""
  },
  {
   "property": "C09",
   "status": "partial",
   "theorems": [
    "Schnek.Props.C09_shape_matches_buffer_partial",
    "Schnek.Props.C09_copy_and_assign_share",
    "Schnek.Props.C09_sharing_persists",
    "Schnek.Props.C09_resize",
    "Schnek.Props.C09_resize_keeps_capacity",
    "Schnek.Props.C09_assign_to_fresh_allowed",
    "Schnek.Props.C09_histories_without_assignment_reach",
    "Schnek.Props.C09_violated_assignment_keeps_old_share",
    "Schnek.Props.C09_violated_default_grid_has_no_storage"
   ],
   "note": "Full claim is false: assignment to a grid that already shares data keeps the old share (C09_violated_assignment_keeps_old_share), and a default-constructed grid has no storage. The partial theorem covers every history in which a grid is only assigned to while it shares nothing."
  },
  {
   "property": "C10",
   "status": "partial",
   "theorems": [
    "Schnek.Props.C10_memory_safe_partial",
    "Schnek.Props.C10_valid_operations_succeed_partial",
    "Schnek.Props.C10_violated_callback_of_destroyed_grid"
   ],
   "note": "Full claim is false: the callback of a re-assigned and then destroyed grid is invoked (C10_violated_callback_of_destroyed_grid). The partial theorems cover every history in which a grid is only assigned to while it shares nothing."
  },
  {
   "property": "C11",
   "status": "partial",
   "theorems": [
    "Schnek.Props.C11_lazy_capacity_partial",
    "Schnek.Props.C11_violated_assignment_keeps_buffer_size"
   ],
   "note": "Full claim is false after an assignment, which copies the data pointer but not the buffer size. The partial theorem covers all histories of constructions and resizes with arbitrary oracle values for the floating point statistics."
  },
  {
   "property": "C12",
   "status": "partial",
   "theorems": [
    "Schnek.Props.Kokkos.C12_consistent_without_shared_resize_partial",
    "Schnek.Props.Kokkos.C12_unsized_no_access",
    "Schnek.Props.Kokkos.C12_violated_default",
    "Schnek.Props.Kokkos.C12_violated_copy_keeps_old_view",
    "Schnek.Props.Kokkos.C12_violated_assigned_grid_keeps_range",
    "Schnek.Props.Kokkos.C12_violated_dead_callback"
   ],
   "note": "Full claim is false: other copies get the new range but keep the old view. The partial theorem covers histories in which no grid is resized while it shares its data, for grids that have been given a size; those without a size have no memory although they report a cell."
  },
  {
   "property": "C13",
   "status": "proved",
   "theorems": [
    "Schnek.Props.C13_constructors",
    "Schnek.Props.C13_resizes"
   ],
   "note": ""
  },
  {
   "property": "C14",
   "status": "proved",
   "theorems": [
    "Schnek.Props.C14_indexToPosition",
    "Schnek.Props.C14_position_of_index",
    "Schnek.Props.C14_index_of_position"
   ],
   "note": ""
  },
  {
   "property": "C15",
   "status": "proved",
   "theorems": [
    "Schnek.Props.C15_ghost_and_inner_partition",
    "Schnek.Props.C15_field_boundary"
   ],
   "note": ""
  },
  {
   "property": "C16",
   "status": "proved",
   "theorems": [
    "Schnek.Props.C16_source_is_shifted_ghost",
    "Schnek.Props.C16_corners",
    "Schnek.Props.C16_source_avoids_ghosts_iff"
   ],
   "note": ""
  },
  {
   "property": "C17",
   "status": "proved",
   "theorems": [
    "Schnek.Props.C17_exchange_is_periodic",
    "Schnek.Props.C17_inner_cells_unchanged"
   ],
   "note": ""
  },
  {
   "property": "C18",
   "status": "partial",
   "theorems": [
    "Schnek.Props.C18_violated_no_ghost_cells_reads_outside"
   ],
   "note": "The unchanged code violates the property for every grid without ghost cells: exchange always accesses a cell outside of it. No non-empty part of the claim remains to be proved."
  },
  {
   "property": "C19",
   "status": "proved",
   "theorems": [
    "Schnek.Props.C19_accumulate_sums_images"
   ],
   "note": ""
  },
  {
   "property": "C20",
   "status": "proved",
   "theorems": [
    "Schnek.Props.C20_product"
   ],
   "note": ""
  },
  {
   "property": "C21",
   "status": "proved",
   "theorems": [
    "Schnek.Props.C21_prime_factorisation",
    "Schnek.Props.C21_sieve"
   ],
   "note": ""
  },
  {
   "property": "C22",
   "status": "partial",
   "theorems": [
    "Schnek.Props.C22_violated_first_factor",
    "Schnek.Props.C22_best_with_first_factor_partial"
   ],
   "note": "Full claim is false: the smallest prime factor always goes to dimension 0 (C22_violated_first_factor). The partial theorem shows optimality among the layouts that satisfy this restriction."
  },
  {
   "property": "C23",
   "status": "partial",
   "theorems": [
    "Schnek.Props.C23_inner_domains_tile_partial",
    "Schnek.Props.C23_violated_lower_limit_ignored"
   ],
   "note": "Full claim is false for a global lower limit other than 0 (C23_violated_lower_limit_ignored). The partial theorem covers lower limit 0, any number of processes, and every rounding of the cut positions."
  },
  {
   "property": "C24",
   "status": "proved",
   "theorems": [
    "Schnek.Props.C24_inner_width",
    "Schnek.Props.C24_balanced"
   ],
   "note": ""
  },
  {
   "property": "C25",
   "status": "proved",
   "theorems": [
    "Schnek.Props.C25_exchange_is_global_periodic"
   ],
   "note": ""
  },
  {
   "property": "C26",
   "status": "partial",
   "theorems": [
    "Schnek.Props.C26_buffer_size_partial",
    "Schnek.Props.C26_violated_int_overflow"
   ],
   "note": "Full claim is false when the buffer size overflows int (C26_violated_int_overflow). The partial theorem covers all sizes whose product fits."
  },
  {
   "property": "C27",
   "status": "proved",
   "theorems": [
    "Schnek.Props.C27_unique_ids_differ",
    "Schnek.Props.C27_unique_ids_range"
   ],
   "note": ""
  },
  {
   "property": "C28",
   "status": "proved",
   "theorems": [
    "Schnek.Props.C28_round_trip",
    "Schnek.Props.C28_exchange_delivers"
   ],
   "note": ""
  },
  {
   "property": "C29",
   "status": "proved",
   "theorems": [
    "Schnek.Props.C29_grammar_is_arithmetic",
    "Schnek.Props.C29_value_is_arithmetic",
    "Schnek.Props.C29_accepted_iff"
   ],
   "note": ""
  },
  {
   "property": "C30",
   "status": "partial",
   "theorems": [
    "Schnek.Props.C30_mixed_types_partial",
    "Schnek.Props.C30_violated_subtraction",
    "Schnek.Props.C30_violated_division"
   ],
   "note": "Full claim is false (10.0-3-2). The partial theorem covers expressions in which every chain of three or more operands has one type from its third operand on."
  },
  {
   "property": "C31",
   "status": "proved",
   "theorems": [
    "Schnek.Props.C31_constant_expressions"
   ],
   "note": ""
  },
  {
   "property": "C32",
   "status": "proved",
   "theorems": [
    "Schnek.Props.C32_dependencies_complete",
    "Schnek.Props.C32_constant_dependencies"
   ],
   "note": ""
  },
  {
   "property": "C33",
   "status": "proved",
   "theorems": [
    "Schnek.Props.C33_call_value",
    "Schnek.Props.C33_call_accepted",
    "Schnek.Props.C33_arguments_as_written"
   ],
   "note": ""
  },
  {
   "property": "C34",
   "status": "proved",
   "theorems": [
    "Schnek.Props.C34_update_list"
   ],
   "note": ""
  },
  {
   "property": "C35",
   "status": "proved",
   "theorems": [
    "Schnek.Props.C35_dependents_current",
    "Schnek.Props.C35_as_from_scratch"
   ],
   "note": ""
  },
  {
   "property": "C36",
   "status": "proved",
   "theorems": [
    "Schnek.Props.C36_cycles_detected"
   ],
   "note": ""
  },
  {
   "property": "C37",
   "status": "partial",
   "theorems": [
    "Schnek.Props.C37_recreate_partial",
    "Schnek.Props.C37_violated_recreate"
   ],
   "note": "Full claim is false: recreate() throws as soon as there is a non-constant variable. The partial theorem covers maps with constant variables only."
  },
  {
   "property": "C38",
   "status": "proved",
   "theorems": [
    "Schnek.Props.C38_in_files",
    "Schnek.Props.C38_lookup",
    "Schnek.Props.C38_declaration",
    "Schnek.Props.C38_new_block"
   ],
   "note": ""
  },
  {
   "property": "C39",
   "status": "partial",
   "theorems": [
    "Schnek.Props.C39_own_block_partial",
    "Schnek.Props.C39_violated_enclosing",
    "Schnek.Props.C39_violated_null",
    "Schnek.Props.C39_violated_separator"
   ],
   "note": "Full claim is false (enclosing blocks, null pointer, separator). The partial theorem covers names of the current block."
  },
  {
   "property": "C40",
   "status": "proved",
   "theorems": [
    "Schnek.Props.C40_variable",
    "Schnek.Props.C40_block",
    "Schnek.Props.C40_persistent"
   ],
   "note": ""
  },
  {
   "property": "C41",
   "status": "proved",
   "theorems": [
    "Schnek.Props.C41_kept",
    "Schnek.Props.C41_typed",
    "Schnek.Props.C41_rejected",
    "Schnek.Props.C41_read_only",
    "Schnek.Props.C41_accepted"
   ],
   "note": ""
  },
  {
   "property": "C42",
   "status": "proved",
   "theorems": [
    "Schnek.Props.C42_below_root",
    "Schnek.Props.C42_current",
    "Schnek.Props.C42_made",
    "Schnek.Props.C42_parents",
    "Schnek.Props.C42_braces",
    "Schnek.Props.C42_balanced"
   ],
   "note": ""
  },
  {
   "property": "C43",
   "status": "partial",
   "theorems": [
    "Schnek.Props.C43_open_blocks_partial",
    "Schnek.Props.C43_violated_open_blocks"
   ],
   "note": "Full claim is false: nothing checks the nesting at the end of a file. The partial theorem says which block nesting is left open."
  },
  {
   "property": "C44",
   "status": "proved",
   "theorems": [
    "Schnek.Props.C44_search",
    "Schnek.Props.C44_retrieve",
    "Schnek.Props.C44_own"
   ],
   "note": ""
  },
  {
   "property": "C45",
   "status": "partial",
   "theorems": [
    "Schnek.Props.C45_order",
    "Schnek.Props.C45_start_partial",
    "Schnek.Props.C45_violated_deep",
    "Schnek.Props.C45_violated_example"
   ],
   "note": "The order is proved for all trees. Calling initAll from a block at depth two or more never terminates (C45_violated_deep); C45_start_partial covers the root and its children."
  },
  {
   "property": "C46",
   "status": "partial",
   "theorems": [
    "Schnek.Props.C46_separate_files",
    "Schnek.Props.C46_append_partial",
    "Schnek.Props.C46_single",
    "Schnek.Props.C46_simulation",
    "Schnek.Props.C46_violated_restart"
   ],
   "note": "False for an appending diagnostic in a run that does not begin at step 0; the partial theorem covers runs from step 0."
  },
  {
   "property": "C47",
   "status": "partial",
   "theorems": [
    "Schnek.Props.C47_adjust",
    "Schnek.Props.C47_times_partial",
    "Schnek.Props.C47_files_partial",
    "Schnek.Props.C47_violated_restart",
    "Schnek.Props.C47_violated_append"
   ],
   "note": "False for runs that begin after an output was due, and for appending diagnostics in runs that do not begin at time 0; the partial theorems cover the other runs. Exact arithmetic."
  },
  {
   "property": "C48",
   "status": "partial",
   "theorems": [
    "Schnek.Props.C48_no_clock",
    "Schnek.Props.C48_histories_partial",
    "Schnek.Props.C48_clocks_partial",
    "Schnek.Props.C48_violated_clock",
    "Schnek.Props.C48_violated_time",
    "Schnek.Props.C48_violated_destroyed"
   ],
   "note": "False when both kinds of diagnostics exist and only one clock is set; the manager goes on calling destroyed diagnostics. The partial theorem covers managers with both clocks or one kind of diagnostics."
  },
  {
   "property": "C49",
   "status": "proved",
   "theorems": [
    "Schnek.Props.C49_create_size",
    "Schnek.Props.C49_create",
    "Schnek.Props.C49_window",
    "Schnek.Props.C49_write_history",
    "Schnek.Props.C49_fill",
    "Schnek.Props.C49_op_assign",
    "Schnek.Props.C49_op_assign_grid",
    "Schnek.Props.C49_ghost_boundary"
   ],
   "note": ""
  },
  {
   "property": "C50",
   "status": "proved",
   "theorems": [
    "Schnek.Props.C50_fill_field",
    "Schnek.Props.C50_fill_field_dependent",
    "Schnek.Props.C50_fill_field_constant",
    "Schnek.Props.C50_returns"
   ],
   "note": ""
  },
  {
   "property": "C51",
   "status": "proved",
   "theorems": [
    "Schnek.Props.C51_variable_ids",
    "Schnek.Props.C51_new_variable",
    "Schnek.Props.C51_block_ids"
   ],
   "note": ""
  },
  {
   "property": "C52",
   "status": "partial",
   "theorems": [
    "Schnek.Props.C52_random_partial",
    "Schnek.Props.C52_violated"
   ],
   "note": "False for the largest values of rand() (rounding of the quotient to float). The partial theorem covers all others."
  },
  {
   "property": "C53",
   "status": "partial",
   "theorems": [
    "Schnek.Props.C53_assign_partial",
    "Schnek.Props.C53_stored_partial",
    "Schnek.Props.C53_op_assign_partial",
    "Schnek.Props.C53_op_assign_array",
    "Schnek.Props.C53_violated_mixed",
    "Schnek.Props.C53_compare",
    "Schnek.Props.C53_violated_nan",
    "Schnek.Props.C53_reductions"
   ],
   "note": "False for expressions mixing double arrays with int numbers or int arrays, and for NaN components in < and <=. The partial theorems cover single-type expressions, with aliasing of the target, and also when the expression is stored and the operands change before it is assigned."
  },
  {
   "property": "C54",
   "status": "partial",
   "theorems": [
    "Schnek.Props.C54_buffer_size_irrelevant_partial",
    "Schnek.Props.C54_returns_iff_fits",
    "Schnek.Props.C54_violated_long_token"
   ],
   "note": "The scanner returns if and only if the tokens fit into the buffer (C54_returns_iff_fits), otherwise it hangs (C54_violated_long_token for every identifier of at least 128 letters). When they fit the result does not depend on the buffer size."
  },
  {
   "property": "C55",
   "status": "partial",
   "theorems": [
    "Schnek.Props.C55_violated_copy_inner_range"
   ],
   "note": "The unchanged code violates the property: copies keep their own ghost cell number (C55_violated_copy_inner_range). The theorem is an equivalence: the inner range is right if and only if the number of ghost cells stays the same."
  },
  {
   "property": "C57",
   "status": "partial",
   "theorems": [
    "Schnek.Props.C57_update_all_partial",
    "Schnek.Props.C57_violated_after_update"
   ],
   "note": "False after an updater left an entry without variable in the map; the partial theorem covers maps without such entries."
  },
  {
   "property": "C58",
   "status": "partial",
   "theorems": [
    "Schnek.Props.C58_independent_partial",
    "Schnek.Props.C58_violated_constant"
   ],
   "note": "False for read-only constants that a definition refers to; the partial theorem covers all other parameters."
  },
  {
   "property": "C59",
   "status": "proved",
   "theorems": [
    "Schnek.Props.C59_cycles",
    "Schnek.Props.C59_values_current"
   ],
   "note": ""
  },
  {
   "property": "C60",
   "status": "partial",
   "theorems": [
    "Schnek.Props.C60_constant_partial",
    "Schnek.Props.C60_violated_later_assignment",
    "Schnek.Props.C60_violated_increment"
   ],
   "note": "False: definitions are kept as expressions and re-evaluated at the end, later assignments are seen by earlier definitions. The partial theorem covers definitions that are constant when they are parsed."
  },
  {
   "property": "C61",
   "status": "partial",
   "theorems": [
    "Schnek.Props.C61_marked_partial",
    "Schnek.Props.C61_violated_no_value"
   ],
   "note": "False: a variable that is marked as having no value can be used in expressions. The partial theorem shows that declared or assigned variables are marked as having a value and stay so."
  },
  {
   "property": "C63",
   "status": "partial",
   "theorems": [
    "Schnek.Props.C63_declaration_partial",
    "Schnek.Props.C63_violated_earlier_name"
   ],
   "note": "False: an expression in a list does not see the names declared before it in the list. The partial theorem covers lists whose expressions use earlier statements only."
  },
  {
   "property": "C64",
   "status": "partial",
   "theorems": [
    "Schnek.Props.C64_no_block_lost_partial",
    "Schnek.Props.C64_violated_no_root"
   ],
   "note": "False if the root block's class has no factory. The partial theorem covers roots with a factory."
  },
  {
   "property": "C62",
   "status": "partial",
   "theorems": [
    "Schnek.Props.C62_parameters_partial",
    "Schnek.Props.C62_errors_partial",
    "Schnek.Props.C62_violated_same_name"
   ],
   "note": "False if a class registers two parameters with the same name. The partial theorems cover distinct names."
  },
  {
   "property": "C65",
   "status": "partial",
   "theorems": [
    "Schnek.Props.C65_pointer_partial",
    "Schnek.Props.C65_violated_shadowed"
   ],
   "note": "False: a pointer registered anywhere hides objects registered in the block itself. The partial theorem covers keys without such a pointer."
  },
  {
   "property": "C66",
   "status": "partial",
   "theorems": [
    "Schnek.Props.C66_plain",
    "Schnek.Props.C66_steps",
    "Schnek.Props.C66_processes",
    "Schnek.Props.C66_both_partial",
    "Schnek.Props.C66_violated_adjacent",
    "Schnek.Props.C66_violated_append"
   ],
   "note": "False for #p directly followed by #t and for appending diagnostics. The partial theorem covers names in which #p precedes #t with a non-digit in between."
  },
  {
   "property": "C67",
   "status": "partial",
   "theorems": [
    "Schnek.Props.C67_same_step_partial",
    "Schnek.Props.C67_violated_single"
   ],
   "note": "False with a single-output diagnostic. The partial theorem covers processes that all execute their diagnostics."
  },
  {
   "property": "C68",
   "status": "partial",
   "theorems": [
    "Schnek.Props.C68_write",
    "Schnek.Props.C68_read",
    "Schnek.Props.C68_roundtrip",
    "Schnek.Props.C68_mpi_partial",
    "Schnek.Props.C68_serial_partial",
    "Schnek.Props.C68_violated_ghost_cells",
    "Schnek.Props.C68_violated_fortran",
    "Schnek.Props.C68_violated_size"
   ],
   "note": "False for Fortran order, for serial output with ghost cells, and for wrong sizes. The other theorems cover the rest."
  },
  {
   "property": "C69",
   "status": "partial",
   "theorems": [
    "Schnek.Props.C69_check_partial",
    "Schnek.Props.C69_violated_before"
   ],
   "note": "False for local parts that begin before the global domain (unsigned comparison)."
  },
  {
   "property": "C70",
   "status": "partial",
   "theorems": [
    "Schnek.Props.C70_read_back",
    "Schnek.Props.C70_series_partial",
    "Schnek.Props.C70_violated_collision",
    "Schnek.Props.C70_violated_append"
   ],
   "note": "False when a block name is reused or collides with a numbered default name."
  },
  {
   "property": "C71",
   "status": "partial",
   "theorems": [
    "Schnek.Props.C71_files_partial",
    "Schnek.Props.C71_violated_copy",
    "Schnek.Props.C71_violated_open_twice",
    "Schnek.Props.C71_violated_assign"
   ],
   "note": "False for copies, assignment and double open. The partial theorem covers streams that are not copied and closed before being opened again."
  },
  {
   "property": "C72",
   "status": "partial",
   "theorems": [
    "Schnek.Props.C72_filler_partial",
    "Schnek.Props.C72_violated_static"
   ],
   "note": "False: the list of fields is a static variable shared by all fillers. The partial theorem covers a single filler."
  },
  {
   "property": "C73",
   "status": "partial",
   "theorems": [
    "Schnek.Props.C73_value_partial",
    "Schnek.Props.C73_violated_two",
    "Schnek.Props.C73_violated_write"
   ],
   "note": "False: the transformed value lives in one shared slot. The partial theorem covers one access at a time."
  },
  {
   "property": "C74",
   "status": "partial",
   "theorems": [
    "Schnek.Props.C74_checked_partial",
    "Schnek.Props.C74_domain_partial",
    "Schnek.Props.C74_violated_default",
    "Schnek.Props.C74_violated_debug_create"
   ],
   "note": "False with the default policies. The partial theorems cover checked sub-grids."
  },
  {
   "property": "C75",
   "status": "partial",
   "theorems": [
    "Schnek.Props.C75_dims_partial",
    "Schnek.Props.C75_violated_resize"
   ],
   "note": "False after resize. The partial theorem covers construction."
  },
  {
   "property": "C76",
   "status": "partial",
   "theorems": [
    "Schnek.Props.C76_cross_product_partial",
    "Schnek.Props.C76_violated_alias"
   ],
   "note": "False if the result is one of the arguments. The partial theorem covers distinct arrays."
  },
  {
   "property": "C77",
   "status": "proved",
   "theorems": [
    "Schnek.Props.C77_mean"
   ],
   "note": ""
  },
  {
   "property": "C78",
   "status": "proved",
   "theorems": [
    "Schnek.Props.C78_stream_grid",
    "Schnek.Props.C78_stream_empty",
    "Schnek.Props.C78_stream_array"
   ],
   "note": ""
  },
  {
   "property": "C56",
   "status": "proved",
   "theorems": [
    "Schnek.Props.C56_accumulate_sums_images",
    "Schnek.Props.C56_copies_agree"
   ],
   "note": ""
  },
  {
   "property": "C79",
   "status": "partial",
   "theorems": [
    "Schnek.Props.C79_serial_like_single_process_partial",
    "Schnek.Props.C79_violated_same_call",
    "Schnek.Props.C79_violated_global_domain",
    "Schnek.Props.C79_size_partial"
   ],
   "note": "False for the same call; the partial theorem gives the call for which both agree."
  },
  {
   "property": "C80",
   "status": "partial",
   "theorems": [
    "Schnek.Props.C80_extents_tile_partial",
    "Schnek.Props.C80_array_partial",
    "Schnek.Props.C80_positions_agree_partial",
    "Schnek.Props.C80_violated_lower_limit",
    "Schnek.Props.C80_violated_serial"
   ],
   "note": "False for a lower limit other than 0 and for the serial class; the partial theorems cover the others."
  },
  {
   "property": "C81",
   "status": "partial",
   "theorems": [
    "Schnek.Props.C81_violated_serial_aliases",
    "Schnek.Props.C81_mpi_buffers_separate_partial",
    "Schnek.Props.C81_mpi_input_untouched_partial",
    "Schnek.Props.C81_violated_mpi_shared_buffers"
   ],
   "note": "False for the serial class, where both buffers alias; with MPI true for buffers that do not share data before, false otherwise (the input is replaced before it is sent)."
  },
  {
   "property": "C82",
   "status": "proved",
   "theorems": [
    "Schnek.Props.C82_bound_flags"
   ],
   "note": ""
  },
  {
   "property": "C83",
   "status": "proved",
   "theorems": [
    "Schnek.Props.C83_max_min",
    "Schnek.Props.C83_sum",
    "Schnek.Props.C83_avg"
   ],
   "note": ""
  },
  {
   "property": "C84",
   "status": "proved",
   "theorems": [
    "Schnek.Props.C84_tokens_unique",
    "Schnek.Props.C84_longest_match"
   ],
   "note": ""
  },
  {
   "property": "C85",
   "status": "partial",
   "theorems": [
    "Schnek.Props.C85_line_comment_skipped_partial",
    "Schnek.Props.C85_block_comment_skipped",
    "Schnek.Props.C85_violated_last_line",
    "Schnek.Props.C85_violated_example"
   ],
   "note": "False for a // comment that ends with the input instead of a line break; all other comments are covered."
  },
  {
   "property": "C86",
   "status": "partial",
   "theorems": [
    "Schnek.Props.C86_bad_character_reported_partial",
    "Schnek.Props.C86_violated_open_string",
    "Schnek.Props.C86_violated_open_comment"
   ],
   "note": "False for string literals and comments that are not closed; the partial theorem characterises exactly when a message is written."
  },
  {
   "property": "C87",
   "status": "partial",
   "theorems": [
    "Schnek.Props.C87_identifier_partial",
    "Schnek.Props.C87_violated_e_plus"
   ],
   "note": "False for e and E directly before a sign and a digit; all other names are covered."
  },
  {
   "property": "C88",
   "status": "partial",
   "theorems": [
    "Schnek.Props.C88_literal_text",
    "Schnek.Props.C88_violated_escapes",
    "Schnek.Props.C88_violated_example"
   ],
   "note": "The text between the quotes is kept exactly (C88_literal_text); as the backslash is kept too, the value cannot contain the quote without a backslash (C88_violated_escapes)."
  },
  {
   "property": "C89",
   "status": "partial",
   "theorems": [
    "Schnek.Props.C89_executed_partial",
    "Schnek.Props.C89_short_statements_partial",
    "Schnek.Props.C89_violated_long_expression"
   ],
   "note": "False for derivations that need more than 100 stack entries (C89_violated_long_expression for every sum of fifty or more numbers). The partial theorems cover all derivations that fit, in particular files of any length whose statements have at most 98 tokens."
  },
  {
   "property": "C90",
   "status": "partial",
   "theorems": [
    "Schnek.Props.C90_accepted_partial",
    "Schnek.Props.C90_accepted_iff_partial",
    "Schnek.Props.C90_violated_lost_statement"
   ],
   "note": "False after a stack overflow (C90_violated_lost_statement). The partial theorems say what is dropped, and are an equivalence for files of any length without 98 consecutive tokens without ; { } (and for all files with less than 100 tokens)."
  },
  {
   "property": "C91",
   "status": "proved",
   "theorems": [
    "Schnek.Props.C91_unambiguous"
   ],
   "note": ""
  },
  {
   "property": "C92",
   "status": "proved",
   "theorems": [
    "Schnek.Props.C92_always_returns"
   ],
   "note": ""
  },
  {
   "property": "C93",
   "status": "partial",
   "theorems": [
    "Schnek.Props.C93_error_position_partial",
    "Schnek.Props.C93_error_reported_partial",
    "Schnek.Props.C93_violated_end_of_file"
   ],
   "note": "False at the end of the file (C93_violated_end_of_file, for every file without 98 consecutive tokens without ; { } that ends too early). The partial theorems cover errors with no such 98 tokens before them, and at the first 100 tokens."
  },
  {
   "property": "C94",
   "status": "partial",
   "theorems": [
    "Schnek.Props.C94_statements_partial",
    "Schnek.Props.C94_one_meaning",
    "Schnek.Props.C94_violated_no_statements"
   ],
   "note": "False for files without statements (C94_violated_no_statements) and for statements that overflow the parser stack (C89). The partial theorem covers files of any length whose statements have at most 98 tokens."
  },
  {
   "property": "C95",
   "status": "partial",
   "theorems": [
    "Schnek.Props.C95_accepted_iff_partial",
    "Schnek.Props.C95_violated_ignored_text"
   ],
   "note": "False for texts with characters that cannot begin a token and for unclosed strings and comments (C95_violated_ignored_text). The partial theorem is an equivalence for texts of any length without 98 consecutive tokens without ; { }, about the tokens before such a character."
  },
  {
   "property": "C96",
   "status": "partial",
   "theorems": [
    "Schnek.Props.C96_line_partial",
    "Schnek.Props.C96_violated_overflow"
   ],
   "note": "C96_violated_overflow: a sum of fifty ones is a statement, but its last number is reported as a syntax error. The partial theorem covers errors with no 98 consecutive tokens without ; { } before them, and at the first 100 tokens; after a stack overflow (C90) the beginning of the text is lost."
  },
  {
   "property": "C97",
   "status": "partial",
   "theorems": [
    "Schnek.Props.C97_layout",
    "Schnek.Props.C97_insert_partial",
    "Schnek.Props.C97_violated_last_line"
   ],
   "note": "C97_layout holds for all texts with the same tokens that fit the scanner's buffer. C97_insert_partial covers insertions that begin with a blank, into texts that end with a line break or of layout without line breaks; without the final line break the claim is false (C97_violated_last_line)."
  },
  {
   "property": "C98",
   "status": "partial",
   "theorems": [
    "Schnek.Props.C98_ends_partial",
    "Schnek.Props.C98_violated_long_name"
   ],
   "note": "False for tokens of 128 or more characters; the partial theorem covers all texts that fit the scanner's buffer, which is exactly when the scanner returns (C54_returns_iff_fits)."
  },
  {
   "property": "C99",
   "status": "proved",
   "theorems": [
    "Schnek.Props.C99_citations"
   ],
   "note": "For all sequences of calls; title, descriptions and keys without line breaks or braces (PlainLine, PlainKey)."
  },
  {
   "property": "C100",
   "status": "partial",
   "theorems": [
    "Schnek.Props.C100_entries_partial",
    "Schnek.Props.C100_every_reference_partial",
    "Schnek.Props.C100_violated_no_type",
    "Schnek.Props.C100_violated_other_reference"
   ],
   "note": "False for references of the base class, whose type is uninitialised, and for two different references with one key. The partial theorems cover all other sequences of calls."
  },
  {
   "property": "C101",
   "status": "partial",
   "theorems": [
    "Schnek.Props.C101_constructors_partial",
    "Schnek.Props.C101_fields_partial",
    "Schnek.Props.C101_violated_school_organization",
    "Schnek.Props.C101_violated"
   ],
   "note": "False for theses, proceedings, articles in proceedings and manuals; the partial theorems cover the other types and the other fields."
  },
  {
   "property": "C102",
   "status": "partial",
   "theorems": [
    "Schnek.Props.C102_grow_each_partial",
    "Schnek.Props.C102_grow_partial",
    "Schnek.Props.C102_shrink_partial",
    "Schnek.Props.C102_back_partial",
    "Schnek.Props.C102_violated_own_limit"
   ],
   "note": "False for arguments that refer to the range itself; the partial theorems cover all argument values."
  },
  {
   "property": "C103",
   "status": "partial",
   "theorems": [
    "Schnek.Props.C103_along_partial",
    "Schnek.Props.C103_first_partial",
    "Schnek.Props.C103_violated_empty"
   ],
   "note": "False for ranges that are empty in a direction left out; the partial theorems cover all others."
  },
  {
   "property": "C104",
   "status": "partial",
   "theorems": [
    "Schnek.Props.C104_field_boundary_partial",
    "Schnek.Props.C104_violated_single_layer"
   ],
   "note": "False for staggered fields with one ghost layer on the lower side; the partial theorem covers all other cases."
  },
  {
   "property": "C105",
   "status": "proved",
   "theorems": [
    "Schnek.Props.C105_exchange_any_schedule"
   ],
   "note": ""
  },
  {
   "property": "C106",
   "status": "proved",
   "theorems": [
    "Schnek.Props.C106_accumulate_any_schedule"
   ],
   "note": ""
  },
  {
   "property": "C107",
   "status": "proved",
   "theorems": [
    "Schnek.Props.C107_simulation",
    "Schnek.Props.C107_any_number_of_processes"
   ],
   "note": ""
  },
  {
   "property": "C108",
   "status": "partial",
   "theorems": [
    "Schnek.Props.C108_copies",
    "Schnek.Props.C108_constant_object_partial",
    "Schnek.Props.C108_violated_state",
    "Schnek.Props.C108_violated_position"
   ],
   "note": "False for function objects that change their state (every call gets a fresh copy, C108_violated_state) and for functions that change the position (C108_violated_position). C108_copies says what happens in general; the partial theorem covers objects without changing state."
  },
  {
   "property": "C109",
   "status": "partial",
   "theorems": [
    "Schnek.Props.C109_parallel_partial",
    "Schnek.Props.C109_violated_no_fence",
    "Schnek.Props.C109_violated_race"
   ],
   "note": "False for functions whose calls conflict (C109_violated_race), and forEach may return before the calls have ended (C109_violated_no_fence); the partial theorem covers every race-free function under every interleaving."
  },
  {
   "property": "C110",
   "status": "proved",
   "theorems": [
    "Schnek.Props.C110_child_blocks",
    "Schnek.Props.C110_no_container",
    "Schnek.Props.C110_second_call"
   ],
   "note": ""
  },
  {
   "property": "C111",
   "status": "proved",
   "theorems": [
    "Schnek.Props.C111_assignment",
    "Schnek.Props.C111_default"
   ],
   "note": "Full, for all texts that are accepted and whose tokens are statements (longer statements that overflow the parser's stack are rejected, C149)."
  },
  {
   "property": "C112",
   "status": "proved",
   "theorems": [
    "Schnek.Props.C112_program_any_schedule",
    "Schnek.Props.C112_schedule_independent"
   ],
   "note": "sumReduce(double) and avgReduce(double) are not among the calls: their result depends on the order of additions in MPI."
  },
  {
   "property": "C113",
   "status": "proved",
   "theorems": [
    "Schnek.Props.C113_last_registration",
    "Schnek.Props.C113_not_found",
    "Schnek.Props.C113_defined",
    "Schnek.Props.C113_call",
    "Schnek.Props.C113_standard_functions",
    "Schnek.Props.C113_standard_groups"
   ],
   "note": ""
  },
  {
   "property": "C114",
   "status": "partial",
   "theorems": [
    "Schnek.Props.C114_children",
    "Schnek.Props.C114_factory",
    "Schnek.Props.C114_kept_partial",
    "Schnek.Props.C114_violated_again",
    "Schnek.Props.C114_violated_dangling"
   ],
   "note": "False if a class is registered again (C114_violated_again, C114_violated_dangling). C114_children and C114_factory hold for all sequences of calls."
  },
  {
   "property": "C115",
   "status": "partial",
   "theorems": [
    "Schnek.Props.C115_separate",
    "Schnek.Props.C115_separate_stopped",
    "Schnek.Props.C115_each_step",
    "Schnek.Props.C115_delta",
    "Schnek.Props.C115_append_partial",
    "Schnek.Props.C115_delta_append_partial",
    "Schnek.Props.C115_append_stopped_partial",
    "Schnek.Props.C115_independent",
    "Schnek.Props.C115_parallel",
    "Schnek.Props.C115_violated_again",
    "Schnek.Props.C115_violated_restart",
    "Schnek.Props.C115_violated_parallel"
   ],
   "note": "False for diagnostics that append if step 0 is executed twice, if the run does not begin at step 0, and in parallel runs. The other theorems hold for all steps, texts, buffers, crash points and interleavings."
  },
  {
   "property": "C116",
   "status": "partial",
   "theorems": [
    "Schnek.Props.C116_iterator",
    "Schnek.Props.C116_violated_iterator_largest_index",
    "Schnek.Props.C116_forEach",
    "Schnek.Props.C116_violated_forEach_largest_index"
   ],
   "note": "False for every non-empty range that contains the largest int; proved for all other ranges."
  },
  {
   "property": "C117",
   "status": "partial",
   "theorems": [
    "Schnek.Props.C117_access",
    "Schnek.Props.C117_access_origin",
    "Schnek.Props.C117_getSize",
    "Schnek.Props.C117_violated_offset",
    "Schnek.Props.C117_violated_getSize",
    "Schnek.Props.C117_violated_smallest_index"
   ],
   "note": "False for grids of more than 2^32 elements far from the origin, for the smallest int as lower limit and for getSize() beyond 2^31 elements; the limits of the other theorems are in their hypotheses."
  },
  {
   "property": "C118",
   "status": "partial",
   "theorems": [
    "Schnek.Props.C118_boundaries",
    "Schnek.Props.C118_serial_exchange",
    "Schnek.Props.C118_serial_accumulate",
    "Schnek.Props.C118_mpi_bounds",
    "Schnek.Props.C118_mpi_exchange",
    "Schnek.Props.C118_mpi_accumulate",
    "Schnek.Props.C118_violated_mpi_bounds"
   ],
   "note": "False for a global domain that ends at the largest int."
  },
  {
   "property": "C119",
   "status": "partial",
   "theorems": [
    "Schnek.Props.C119_limits",
    "Schnek.Props.C119_size",
    "Schnek.Props.C119_grow",
    "Schnek.Props.C119_position",
    "Schnek.Props.C119_index",
    "Schnek.Props.C119_violated_position",
    "Schnek.Props.C119_violated_ghost_cells"
   ],
   "note": "False for positions far outside of the domain and for fields whose ghost cells do not fit."
  },
  {
   "property": "C120",
   "status": "proved",
   "theorems": [
    "Schnek.Props.C120_never_stuck",
    "Schnek.Props.C120_any_schedule",
    "Schnek.Props.C120_disagreement_deadlocks"
   ],
   "note": "C120_disagreement_deadlocks shows that the assumption on the decisions is needed."
  },
  {
   "property": "C121",
   "status": "partial",
   "theorems": [
    "Schnek.Props.C121_rounding",
    "Schnek.Props.C121_symmetric_rounding",
    "Schnek.Props.C121_monotone",
    "Schnek.Props.C121_same_index",
    "Schnek.Props.C121_offset",
    "Schnek.Props.C121_accuracy",
    "Schnek.Props.C121_index",
    "Schnek.Props.C121_roundtrip",
    "Schnek.Props.C121_power_of_two",
    "Schnek.Props.C121_violated_roundtrip",
    "Schnek.Props.C121_violated_offset"
   ],
   "note": "In doubles the conversions are not inverse to each other in general (C121_violated_roundtrip) and the offset can be 1 below index 0 (C121_violated_offset); the bounds that do hold are proved. C121_rounding checks the model of double, C121_symmetric_rounding shows that it satisfies the assumptions on rounding of C22 to C24 and of the reductions."
  },
  {
   "property": "C122",
   "status": "partial",
   "theorems": [
    "Schnek.Props.C122_adjust",
    "Schnek.Props.C122_times",
    "Schnek.Props.C122_accuracy",
    "Schnek.Props.C122_files",
    "Schnek.Props.C122_violated_sum",
    "Schnek.Props.C122_violated_reach",
    "Schnek.Props.C122_violated_long"
   ],
   "note": "In doubles outputs are at the rounded sums or one double later, not at exact multiples (C122_violated_sum, C122_violated_reach); C122_violated_long shows that the limit on the length of the simulation is needed."
  },
  {
   "property": "C123",
   "status": "proved",
   "theorems": [
    "Schnek.Props.C123_sqrt",
    "Schnek.Props.C123_layout",
    "Schnek.Props.C123_exact"
   ],
   "note": "Double arithmetic without a largest value: for positive int weights no number in the computation is outside of the range of doubles."
  },
  {
   "property": "C124",
   "status": "proved",
   "theorems": [
    "Schnek.Props.C124_serial",
    "Schnek.Props.C124_serial_copies",
    "Schnek.Props.C124_mpi",
    "Schnek.Props.C124_mpi_copies",
    "Schnek.Props.C124_any_schedule",
    "Schnek.Props.C124_exact",
    "Schnek.Props.C124_error",
    "Schnek.Props.C124_integers",
    "Schnek.Props.C124_sumReduce",
    "Schnek.Props.C124_avgReduce"
   ],
   "note": "The addition of the element type is arbitrary (not commutative, not associative); for double, overflow of accumulate is not modelled."
  },
  {
   "property": "C125",
   "status": "partial",
   "theorems": [
    "Schnek.Props.C125_extents_tile",
    "Schnek.Props.C125_accuracy",
    "Schnek.Props.C125_processes_agree",
    "Schnek.Props.C125_power_of_two",
    "Schnek.Props.C125_violated_same_position",
    "Schnek.Props.C125_violated_upper_end"
   ],
   "note": "Exact agreement is false (C125_violated_same_position, C125_violated_upper_end). The other theorems give the error bound for all ordinary domains, and exact agreement if the cell width is a power of two."
  },
  {
   "property": "C126",
   "status": "proved",
   "theorems": [
    "Schnek.Props.C126_file",
    "Schnek.Props.C126_restart",
    "Schnek.Props.C126_grids"
   ],
   "note": "The processes write in some order, one after the other (collective HDF5 calls are not modelled); grids in C order and parallel HDF5, as in C68. The field of the simulation (a map from cells to values) and the grid that is passed to HDF5 (the storage of C04) are linked by the assumption that they hold the same values in the inner domain."
  },
  {
   "property": "C127",
   "status": "partial",
   "theorems": [
    "Schnek.Props.C127_memory_safe_partial",
    "Schnek.Props.C127_others_unaffected",
    "Schnek.Props.C127_failure_loses_data",
    "Schnek.Props.C127_repair_partial",
    "Schnek.Props.C127_histories_reach",
    "Schnek.Props.C127_violated_grid_after_failure",
    "Schnek.Props.C127_violated_lazy_resize_without_memory"
   ],
   "note": "Memory safety and independence of unrelated grids are proved. That a failed resize leaves usable grids is false: C127_failure_loses_data, C127_violated_grid_after_failure; a later successful resize repairs the grids if it allocates memory (C127_repair_partial), which it need not with the lazy policy (C127_violated_lazy_resize_without_memory). Assignments as in C09. Only new T[] in resize throws; a throwing std::map insertion or new of the record is not modelled. A throwing constructor Grid(range) is construct, fails, destroy."
  },
  {
   "property": "C128",
   "status": "proved",
   "theorems": [
    "Schnek.Props.C128_results_before_crash",
    "Schnek.Props.C128_waits",
    "Schnek.Props.C128_hangs"
   ],
   "note": "A process that stops makes no further step; of its messages that have not been received, the last ones may get lost. What mpirun does then (usually it kills all processes) is not modelled. double sums are not among the reductions of C112."
  },
  {
   "property": "C129",
   "status": "partial",
   "theorems": [
    "Schnek.Props.C129_attributes",
    "Schnek.Props.C129_defined",
    "Schnek.Props.C129_value_at_set_partial",
    "Schnek.Props.C129_default",
    "Schnek.Props.C129_violated_value_at_set",
    "Schnek.Props.C129_violated_temporary"
   ],
   "note": "The value that is written is the one the variable has when the dataset is written, not when set is called (violated), and reading a variable that has ended is undefined (violated). What holds: exact description of the attributes in terms of the calls."
  },
  {
   "property": "C130",
   "status": "proved",
   "theorems": [
    "Schnek.Props.C130_reading",
    "Schnek.Props.C130_read"
   ],
   "note": "Classes with two parameters of the same name are excluded (C62)."
  },
  {
   "property": "C131",
   "status": "partial",
   "theorems": [
    "Schnek.Props.C131_result",
    "Schnek.Props.C131_kept",
    "Schnek.Props.C131_members",
    "Schnek.Props.C131_duplicate",
    "Schnek.Props.C131_violated_root_parameter",
    "Schnek.Props.C131_violated_inside",
    "Schnek.Props.C131_violated_after_error"
   ],
   "note": "Violated: root parameters of further files, files left inside a block, reading after an error. Proved: what stays (names, types, read-only definitions, members), and that redeclaration is rejected."
  },
  {
   "property": "C132",
   "status": "partial",
   "theorems": [
    "Schnek.Props.C132_elements_partial",
    "Schnek.Props.C132_read_only",
    "Schnek.Props.C132_violated_set",
    "Schnek.Props.C132_violated_hasElements"
   ],
   "note": "Violated for parameters that are set in the file, and hasElements is undefined. Proved: exactly the members not assigned to since are elements; read-only members always are."
  },
  {
   "property": "C133",
   "status": "partial",
   "theorems": [
    "Schnek.Props.C133_op_assign_partial",
    "Schnek.Props.C133_op_assign_base",
    "Schnek.Props.C133_violated_backward"
   ],
   "note": "Violated for overlapping windows of which the second starts earlier. Proved for windows without common cells, identical windows and windows of which the second starts later, in every rank."
  },
  {
   "property": "C134",
   "status": "partial",
   "theorems": [
    "Schnek.Props.Lifetime.C134_no_double_free_partial",
    "Schnek.Props.Lifetime.C134_owner_partial",
    "Schnek.Props.Lifetime.C134_no_leak_partial",
    "Schnek.Props.Lifetime.C134_usable_partial",
    "Schnek.Props.Lifetime.C134_violated_copy",
    "Schnek.Props.Lifetime.C134_violated_init_twice"
   ],
   "note": "Violated for copies and for repeated initialisation. The partial theorems cover all histories without these."
  },
  {
   "property": "C135",
   "status": "partial",
   "theorems": [
    "Schnek.Props.BlockLifetime.C135_pointers",
    "Schnek.Props.BlockLifetime.C135_reachable",
    "Schnek.Props.BlockLifetime.C135_no_leak_partial",
    "Schnek.Props.BlockLifetime.C135_output_partial",
    "Schnek.Props.BlockLifetime.C135_violated_never",
    "Schnek.Props.BlockLifetime.C135_violated_rejected",
    "Schnek.Props.BlockLifetime.C135_violated_file",
    "Schnek.Props.BlockLifetime.C135_violated_output"
   ],
   "note": "no block is destroyed while it can be reached; false: blocks with a parent or children are never destroyed, for any file, and appended output stays in the buffer (general theorem, every diagnostic below another block); after a rejected file the outermost block is never destroyed; true for a single block of a file that is accepted"
  },
  {
   "property": "C136",
   "status": "partial",
   "theorems": [
    "Schnek.Props.HdfActive.C136_input_partial",
    "Schnek.Props.HdfActive.C136_output_partial",
    "Schnek.Props.HdfActive.C136_violated_choice_in_some_processes",
    "Schnek.Props.HdfActive.C136_violated_second_input_file",
    "Schnek.Props.HdfActive.C136_violated_changed_output",
    "Schnek.Props.HdfActive.C136_violated_attributes",
    "Schnek.Props.HdfActive.C136_violated_read",
    "Schnek.Props.HdfActive.C136_violated_copy",
    "Schnek.Props.HdfActive.C136_violated_copy_of_used"
   ],
   "note": "Proved for input streams if the choice is made again before each file or never, for output streams if it is made before the first file; false otherwise, with a theorem for each way in which it fails."
  },
  {
   "property": "C137",
   "status": "proved",
   "theorems": [
    "Schnek.Props.ArrayObj.C137_without_checks",
    "Schnek.Props.ArrayObj.C137_checked_never_outside",
    "Schnek.Props.ArrayObj.C137_stopped_iff",
    "Schnek.Props.ArrayObj.C137_get",
    "Schnek.Props.ArrayObj.C137_set",
    "Schnek.Props.ArrayObj.C137_negative",
    "Schnek.Props.ArrayObj.C137_one_value",
    "Schnek.Props.ArrayObj.C137_values",
    "Schnek.Props.ArrayObj.C137_copy",
    "Schnek.Props.ArrayObj.C137_fill",
    "Schnek.Props.ArrayObj.C137_fill_with_element",
    "Schnek.Props.ArrayObj.C137_project",
    "Schnek.Props.ArrayObj.C137_projectDim",
    "Schnek.Props.ArrayObj.C137_fold",
    "Schnek.Props.ArrayObj.C137_assign",
    "Schnek.Props.ArrayObj.C137_no_values"
   ],
   "note": "Proved for every program: without checks the same values and arrays, or an access outside exactly where the checked program is stopped. What the policy does not check, the use of an element without a value, is in C137_no_values."
  },
  {
   "property": "C138",
   "status": "partial",
   "theorems": [
    "Schnek.Props.C138_update_throws",
    "Schnek.Props.C138_update_outcomes",
    "Schnek.Props.C138_update_again",
    "Schnek.Props.C138_parameters_outcomes",
    "Schnek.Props.C138_parameters_partial",
    "Schnek.Props.C138_fill_throws"
   ],
   "note": "update is proved in full. evaluateParameters: for block classes whose parameters have different names, as in C62 (where the case of equal names is shown to be a violation)."
  },
  {
   "property": "C139",
   "status": "partial",
   "theorems": [
    "Schnek.Props.C139_refines",
    "Schnek.Props.C139_reported",
    "Schnek.Props.C139_first_fault_partial",
    "Schnek.Props.C139_documented_partial",
    "Schnek.Props.C139_detected_partial",
    "Schnek.Props.C139_detected",
    "Schnek.Props.C139_violated_number",
    "Schnek.Props.C139_violated_division"
   ],
   "note": "Partial in two points, each with the reason: the first statement at fault is reported for files whose statements the parser's stack can hold (in others it may lose the beginning, C90); a number that cannot be converted is reported by boost::bad_lexical_cast, not by a ParserError or EvaluationException, and a division by zero is not reported at all (violations);  What is said of the exception and its line is proved for all files."
  },
  {
   "property": "C140",
   "status": "proved",
   "theorems": [
    "Schnek.Props.C140_refines",
    "Schnek.Props.C140_reason",
    "Schnek.Props.C140_strict",
    "Schnek.Props.C140_constants",
    "Schnek.Props.C140_doubles"
   ],
   "note": "Proved in full. What double arithmetic, pow and the conversions between text and numbers do is a parameter (FloatOps)."
  },
  {
   "property": "C141",
   "status": "partial",
   "theorems": [
    "Schnek.Props.C141_map_exists",
    "Schnek.Props.C141_value_unique",
    "Schnek.Props.C141_follows_partial",
    "Schnek.Props.C141_update_ends",
    "Schnek.Props.C141_constant_at_once",
    "Schnek.Props.C141_precedence_add",
    "Schnek.Props.C141_precedence_mult",
    "Schnek.Props.C141_violated_swallowed"
   ],
   "note": "Partial: that the variables follow is proved for files all of whose formulas can be evaluated when the file is read (an exception there is swallowed and leaves a wrong value behind, C141_violated_swallowed). C141_precedence_add and C141_precedence_mult are two of the project's own tests, from the text of the file, for all values of the variables. What the program may change is described by Session: not the variables of read-only parameters that it has not declared independent."
  },
  {
   "property": "C142",
   "status": "partial",
   "theorems": [
    "Schnek.Props.C142_manual",
    "Schnek.Props.C142_fill_field_partial",
    "Schnek.Props.C142_fill_field_again_partial",
    "Schnek.Props.C142_throws_partial"
   ],
   "note": "Partial: as in C141, for files all of whose formulas can be evaluated when the file is read; and arithmetic on positions is exact. C142_manual is the example of the manual (with formulas without functions), for all fields and histories."
  },
  {
   "property": "C143",
   "status": "partial",
   "theorems": [
    "Schnek.Props.C143_exists",
    "Schnek.Props.C143_after_first",
    "Schnek.Props.C143_one_instance_partial",
    "Schnek.Props.C143_violated_threads",
    "Schnek.Props.C143_ids_partial",
    "Schnek.Props.C143_violated_ids"
   ],
   "note": "Partial: proved if no two threads are in the function at the same time, and after the first call has returned for every interleaving; false otherwise (C143_violated_threads, C143_violated_ids)."
  },
  {
   "property": "C144",
   "status": "proved",
   "theorems": [
    "Schnek.Props.C144_get",
    "Schnek.Props.C144_size",
    "Schnek.Props.C144_value",
    "Schnek.Props.C144_default"
   ],
   "note": "Template instantiation as a function on lists."
  },
  {
   "property": "C145",
   "status": "partial",
   "theorems": [
    "Schnek.Props.C145_read_int",
    "Schnek.Props.C145_read_float",
    "Schnek.Props.C145_accepts_float",
    "Schnek.Props.C145_int_again",
    "Schnek.Props.C145_float_again",
    "Schnek.Props.C145_convert_again",
    "Schnek.Props.C145_concatenation",
    "Schnek.Props.C145_integer_literal",
    "Schnek.Props.C145_float_literal_partial",
    "Schnek.Props.C145_violated_no_digit"
   ],
   "note": "Literals of type float need a digit before the exponent: the scanner accepts a point or an exponent alone, for which there is no value (C145_violated_no_digit). lexical_cast is modelled after its documentation, it is not part of the repository."
  },
  {
   "property": "C146",
   "status": "partial",
   "theorems": [
    "Schnek.Props.LazyStats.C146_condition",
    "Schnek.Props.LazyStats.C146_memory_bound",
    "Schnek.Props.LazyStats.C146_settles",
    "Schnek.Props.LazyStats.C146_thrown_away_late_partial",
    "Schnek.Props.LazyStats.C146_violated_alternating"
   ],
   "note": "The late throwing away is proved for 14 elements or more; for one element it is false: alternating sizes reallocate at every resize (C146_violated_alternating). double is exact and r is 1/20."
  },
  {
   "property": "C147",
   "status": "proved",
   "theorems": [
    "Schnek.Props.Calls.C147_each_once",
    "Schnek.Props.Calls.C147_update",
    "Schnek.Props.Calls.C147_count",
    "Schnek.Props.Calls.C147_exception",
    "Schnek.Props.Calls.C147_always",
    "Schnek.Props.Calls.C147_same_as_update",
    "Schnek.Props.Calls.C147_text"
   ],
   "note": "Proved for functions with arbitrary effects on the outside world."
  },
  {
   "property": "C148",
   "status": "partial",
   "theorems": [
    "Schnek.Props.C148_interval",
    "Schnek.Props.C148_delta",
    "Schnek.Props.C148_separate",
    "Schnek.Props.C148_append_partial",
    "Schnek.Props.C148_no_name",
    "Schnek.Props.C148_field",
    "Schnek.Props.C148_violated_zero",
    "Schnek.Props.C148_simulation",
    "Schnek.Props.C148_simulation_delta_partial"
   ],
   "note": "Interval 0 is accepted and leads to a division by zero (C148_violated_zero). Appending and physical time diagnostics as in C115 and C47. The values are those of expressions that are constant where they are assigned."
  },
  {
   "property": "C149",
   "status": "proved",
   "theorems": [
    "Schnek.Props.C149_accepted_iff",
    "Schnek.Props.C149_outcomes",
    "Schnek.Props.C149_text",
    "Schnek.Props.C149_nothing_lost"
   ],
   "note": "Full: an equivalence for all sequences of tokens that follow the grammar, and all outcomes for all texts whose tokens are statements."
  },
  {
   "property": "C150",
   "status": "partial",
   "theorems": [
    "Schnek.Props.C150_members",
    "Schnek.Props.C150_init",
    "Schnek.Props.C150_current",
    "Schnek.Props.C150_dataset",
    "Schnek.Props.C150_reader",
    "Schnek.Props.C150_violated_resized",
    "Schnek.Props.C150_violated_assigned"
   ],
   "note": "Needs the field to keep its range after initialisation (C150_violated_resized) and not to be assigned to (C150_violated_assigned). For grids in C order and parallel HDF5, as in C68. Derived diagnostics fill the container themselves and are not modelled."
  },
  {
   "property": "C151",
   "status": "proved",
   "theorems": [
    "Schnek.Props.C151_sums",
    "Schnek.Props.C151_products",
    "Schnek.Props.C151_parentheses",
    "Schnek.Props.C151_arguments",
    "Schnek.Props.C151_declarations",
    "Schnek.Props.C151_place"
   ],
   "note": "Full, for the statements in Spec/StackLimit.lean (operands are single tokens). C151_place is the finding that the limits depend on the place of a statement."
  },
  {
   "property": "C152",
   "status": "partial",
   "theorems": [
    "Schnek.Props.C152_create",
    "Schnek.Props.C152_create_outside",
    "Schnek.Props.C152_resize",
    "Schnek.Props.C152_destroy",
    "Schnek.Props.C152_outside",
    "Schnek.Props.C152_copy",
    "Schnek.Props.C152_follows_partial",
    "Schnek.Props.C152_violated_shrunk",
    "Schnek.Props.C152_violated_destroyed"
   ],
   "note": "C152_follows_partial: positions within the current range of the base grid, base grid not destroyed, assignments of grids restricted as in C09. C152_violated_shrunk, C152_violated_destroyed: false otherwise. C152_create, C152_create_outside, C152_outside, C152_resize, C152_destroy and C152_copy are full."
  },
  {
   "property": "C153",
   "status": "partial",
   "theorems": [
    "Schnek.Props.VarLifetime.C153_safe",
    "Schnek.Props.VarLifetime.C153_freed_partial",
    "Schnek.Props.VarLifetime.C153_settles",
    "Schnek.Props.VarLifetime.C153_violated_cycles",
    "Schnek.Props.VarLifetime.C153_violated_blocks",
    "Schnek.Props.VarLifetime.C153_all_freed_partial"
   ],
   "note": "C153_freed_partial, C153_all_freed_partial: up to objects on cycles, and for files without blocks and without self-referring formulas. C153_violated_blocks, C153_violated_cycles: never destroyed otherwise. C153_safe and C153_settles are full."
  },
  {
   "property": "C154",
   "status": "partial",
   "theorems": [
    "Schnek.Props.RangeChange.C154_ends",
    "Schnek.Props.RangeChange.C154_unchanged",
    "Schnek.Props.RangeChange.C154_saved_partial",
    "Schnek.Props.RangeChange.C154_inside_partial",
    "Schnek.Props.RangeChange.C154_alive",
    "Schnek.Props.RangeChange.C154_violated_outside",
    "Schnek.Props.RangeChange.C154_violated_growing",
    "Schnek.Props.RangeChange.C154_violated_saved"
   ],
   "note": "C154_ends, C154_unchanged and C154_alive are full (for bounded limits; C154_violated_growing: not without bound). C154_inside_partial: ranges that only grow, C154_violated_outside otherwise. C154_saved_partial: lower limits unchanged, C154_violated_saved otherwise."
  },
  {
   "property": "C155",
   "status": "partial",
   "theorems": [
    "Schnek.Props.C155_words",
    "Schnek.Props.C155_followed_partial",
    "Schnek.Props.C155_array",
    "Schnek.Props.C155_same",
    "Schnek.Props.C155_int",
    "Schnek.Props.C155_double_partial",
    "Schnek.Props.C155_violated_followed",
    "Schnek.Props.C155_violated_double"
   ],
   "note": "C155_words, C155_array, C155_same and C155_int are full. C155_followed_partial: rank 2 and above, C155_violated_followed otherwise. C155_double_partial: up to half of the sixth digit, C155_violated_double otherwise."
  },
  {
   "property": "C156",
   "status": "partial",
   "theorems": [
    "Schnek.Props.C156_assigned_partial",
    "Schnek.Props.C156_blocks_partial",
    "Schnek.Props.C156_block_parameters_partial",
    "Schnek.Props.C156_mixed_partial",
    "Schnek.Props.C156_violated_whole_double",
    "Schnek.Props.C156_settings_partial",
    "Schnek.Props.C156_parameters_partial",
    "Schnek.Props.C156_violated_least",
    "Schnek.Props.C156_violated_none",
    "Schnek.Props.C156_typed_partial",
    "Schnek.Props.C156_fractions"
   ],
   "note": "For values above the smallest int, floating point numbers whose text has a point or an exponent (in particular all that are not whole numbers, C156_fractions) and at least one setting; the names are not those of parameters of the root block, which would be assigned instead of declared."
  },
  {
   "property": "C157",
   "status": "partial",
   "theorems": [
    "Schnek.Props.C157_declaration_partial",
    "Schnek.Props.C157_assignment",
    "Schnek.Props.C157_violated_integer_for_float"
   ],
   "note": "Declarations are proved for expressions of exactly the declared type: conversion is false of the code. Assignments are proved in full."
  },
  {
   "property": "C158",
   "status": "partial",
   "theorems": [
    "Schnek.Props.C158_block_partial",
    "Schnek.Props.C158_closing",
    "Schnek.Props.C158_nesting",
    "Schnek.Props.C158_names",
    "Schnek.Props.C158_violated_unknown_class"
   ],
   "note": "Proved in full but for blocks of unknown classes, which are accepted if blocks are not restricted."
  }
 ]
}