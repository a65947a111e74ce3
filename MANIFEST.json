{
 "claims": [
  {
   "property": "C01",
   "status": "proved",
   "theorems": [
    "Obake.C01_pack_unpack_roundtrip"
   ],
   "note": ""
  },
  {
   "property": "C02",
   "status": "proved",
   "theorems": [
    "Obake.C02_kpacker_ctor",
    "Obake.C02_push_history",
    "Obake.C02_push_size_zero"
   ],
   "note": ""
  },
  {
   "property": "C03",
   "status": "proved",
   "theorems": [
    "Obake.C03_kunpacker_ctor",
    "Obake.C03_unpack_pack",
    "Obake.C03_pack_injective"
   ],
   "note": ""
  },
  {
   "property": "C04",
   "status": "proved",
   "theorems": [
    "Obake.C04_unpack_digits",
    "Obake.C04_divcnst_exact"
   ],
   "note": ""
  },
  {
   "property": "C05",
   "status": "proved",
   "theorems": [
    "Obake.C05_pack_additive"
   ],
   "note": ""
  },
  {
   "property": "C06",
   "status": "proved",
   "theorems": [
    "Obake.C06_safe_int_add",
    "Obake.C06_safe_int_sub",
    "Obake.C06_safe_bool"
   ],
   "note": ""
  },
  {
   "property": "C07",
   "status": "proved",
   "theorems": [
    "Obake.C07_mixed_compare",
    "Obake.C07_safe_convert",
    "Obake.C07_safe_cast",
    "Obake.C07_safe_convert_numbers",
    "Obake.C07_safe_cast_numbers"
   ],
   "note": ""
  },
  {
   "property": "C08",
   "status": "proved",
   "theorems": [
    "Obake.C08_to_string"
   ],
   "note": ""
  },
  {
   "property": "C09",
   "status": "proved",
   "theorems": [
    "Obake.C09_merge_symbol_sets",
    "Obake.C09_union_comm"
   ],
   "note": ""
  },
  {
   "property": "C10",
   "status": "proved",
   "theorems": [
    "Obake.C10_sm_intersect_idx",
    "Obake.C10_ss_intersect_idx"
   ],
   "note": ""
  },
  {
   "property": "C11",
   "status": "proved",
   "theorems": [
    "Obake.C11_construct",
    "Obake.C11_construct_n",
    "Obake.C11_compatible_iff",
    "Obake.C11_eq_iff",
    "Obake.C11_is_one"
   ],
   "note": ""
  },
  {
   "property": "C12",
   "status": "proved",
   "theorems": [
    "Obake.C12_mul_after_check"
   ],
   "note": ""
  },
  {
   "property": "C13",
   "status": "proved",
   "theorems": [
    "Obake.C13_overflow_check_exact",
    "Obake.C13_overflow_check_minmax"
   ],
   "note": ""
  },
  {
   "property": "C14",
   "status": "proved",
   "theorems": [
    "Obake.C14_degree"
   ],
   "note": ""
  },
  {
   "property": "C15",
   "status": "proved",
   "theorems": [
    "Obake.C15_pow"
   ],
   "note": ""
  },
  {
   "property": "C16",
   "status": "proved",
   "theorems": [
    "Obake.C16_diff",
    "Obake.C16_integrate",
    "Obake.C16_diff_integrate"
   ],
   "note": ""
  },
  {
   "property": "C17",
   "status": "proved",
   "theorems": [
    "Obake.C17_merge_symbols",
    "Obake.C17_merge_with_union"
   ],
   "note": ""
  },
  {
   "property": "C18",
   "status": "proved",
   "theorems": [
    "Obake.C18_trim_identify",
    "Obake.C18_trim"
   ],
   "note": ""
  },
  {
   "property": "C19",
   "status": "proved",
   "theorems": [
    "Obake.C19_evaluate",
    "Obake.C19_subs",
    "Obake.C19_subs_then_evaluate"
   ],
   "note": ""
  },
  {
   "property": "C20",
   "status": "proved",
   "theorems": [
    "Obake.C20_d_packed_hash_homomorphic",
    "Obake.C20_hash_homomorphic"
   ],
   "note": ""
  },
  {
   "property": "C21",
   "status": "proved",
   "theorems": [
    "Obake.C21_construct",
    "Obake.C21_recover",
    "Obake.C21_eq_iff",
    "Obake.C21_is_one",
    "Obake.C21_overflow_check_exact",
    "Obake.C21_mul_after_check",
    "Obake.C21_pow",
    "Obake.C21_diff",
    "Obake.C21_integrate",
    "Obake.C21_merge_symbols",
    "Obake.C21_merge_with_union",
    "Obake.C21_trim",
    "Obake.C21_trim_identify",
    "Obake.C21_evaluate",
    "Obake.C21_subs"
   ],
   "note": ""
  },
  {
   "property": "C22",
   "status": "proved",
   "theorems": [
    "Obake.C22_degree",
    "Obake.C22_p_degree"
   ],
   "note": ""
  },
  {
   "property": "C23",
   "status": "proved",
   "theorems": [
    "Obake.C23_invariant",
    "Obake.C23_class_invariant",
    "Obake.C23_packed_keys",
    "Obake.C23_invariant_packed"
   ],
   "note": ""
  },
  {
   "property": "C24",
   "status": "proved",
   "theorems": [
    "Obake.C24_accumulation",
    "Obake.C24_order_independent"
   ],
   "note": ""
  },
  {
   "property": "C25",
   "status": "proved",
   "theorems": [
    "Obake.C25_add_sub",
    "Obake.C25_mul",
    "Obake.C25_equality",
    "Obake.C25_diff",
    "Obake.C25_in_place",
    "Obake.C25_scalar_ops",
    "Obake.C25_scalar_add",
    "Obake.C25_pow",
    "Obake.C25_integrate",
    "Obake.C25_degree",
    "Obake.C25_evaluate",
    "Obake.C25_trim",
    "Obake.C25_observations",
    "Obake.C25_segmentation"
   ],
   "note": ""
  },
  {
   "property": "C26",
   "status": "proved",
   "theorems": [
    "Obake.C26_iteration",
    "Obake.C26_find"
   ],
   "note": ""
  },
  {
   "property": "C27",
   "status": "proved",
   "theorems": [
    "Obake.C27_unchanged",
    "Obake.C27_table_cleared",
    "Obake.C27_invariant"
   ],
   "note": ""
  },
  {
   "property": "C28",
   "status": "proved",
   "theorems": [
    "Obake.C28_add_sub",
    "Obake.C28_total",
    "Obake.C28_scalar"
   ],
   "note": ""
  },
  {
   "property": "C29",
   "status": "proved",
   "theorems": [
    "Obake.C29_in_place",
    "Obake.C29_same_as_binary",
    "Obake.C29_self",
    "Obake.C29_scalar"
   ],
   "note": ""
  },
  {
   "property": "C30",
   "status": "proved",
   "theorems": [
    "Obake.C30_negate",
    "Obake.C30_scalar_mul",
    "Obake.C30_scalar_div"
   ],
   "note": ""
  },
  {
   "property": "C31",
   "status": "proved",
   "theorems": [
    "Obake.C31_equality",
    "Obake.C31_not_equal",
    "Obake.C31_equivalence",
    "Obake.C31_scalar",
    "Obake.C31_identical"
   ],
   "note": ""
  },
  {
   "property": "C32",
   "status": "proved",
   "theorems": [
    "Obake.C32_mul",
    "Obake.C32_total",
    "Obake.C32_comm"
   ],
   "note": ""
  },
  {
   "property": "C33",
   "status": "proved",
   "theorems": [
    "Obake.C33_schedule_independent",
    "Obake.C33_exception",
    "Obake.C33_disjoint_writes",
    "Obake.C33_segments",
    "Obake.C33_environment_independent"
   ],
   "note": ""
  },
  {
   "property": "C34",
   "status": "proved",
   "theorems": [
    "Obake.C34_success_fits",
    "Obake.C34_overflow_throws",
    "Obake.C34_overflow_error",
    "Obake.C34_packed_rep",
    "Obake.C34_d_packed_rep"
   ],
   "note": ""
  },
  {
   "property": "C35",
   "status": "proved",
   "theorems": [
    "Obake.C35_truncated_mul",
    "Obake.C35_truncates_product",
    "Obake.C35_packed",
    "Obake.C35_d_packed_unsigned"
   ],
   "note": ""
  },
  {
   "property": "C36",
   "status": "proved",
   "theorems": [
    "Obake.C36_packed_unit",
    "Obake.C36_d_packed_unit",
    "Obake.C36_pow",
    "Obake.C36_zero",
    "Obake.C36_history_independent",
    "Obake.C36_bad_exponent",
    "Obake.C36_single_term",
    "Obake.C36_empty",
    "Obake.C36_cache_kept",
    "Obake.C36_cache_filled",
    "Obake.C36_concurrent",
    "Obake.C36_mutual_exclusion",
    "Obake.C36_hash_consistent"
   ],
   "note": ""
  },
  {
   "property": "C37",
   "status": "proved",
   "theorems": [
    "Obake.C37_degree",
    "Obake.C37_p_degree",
    "Obake.C37_packed",
    "Obake.C37_degree_nested",
    "Obake.C37_unique"
   ],
   "note": ""
  },
  {
   "property": "C38",
   "status": "proved",
   "theorems": [
    "Obake.C38_mul",
    "Obake.C38_evaluate",
    "Obake.C38_missing_symbol",
    "Obake.C38_keys",
    "Obake.C38_add_sub"
   ],
   "note": ""
  },
  {
   "property": "C39",
   "status": "proved",
   "theorems": [
    "Obake.C39_keys",
    "Obake.C39_subs_scalar",
    "Obake.C39_evaluate_scalar",
    "Obake.C39_subs_poly",
    "Obake.C39_evaluate_poly",
    "Obake.C39_evaluate_poly_values",
    "Obake.C39_nat_powers",
    "Obake.C39_absent"
   ],
   "note": ""
  },
  {
   "property": "C40",
   "status": "proved",
   "theorems": [
    "Obake.C40_diff",
    "Obake.C40_diff_other",
    "Obake.C40_additive",
    "Obake.C40_leibniz",
    "Obake.C40_diff_add_sub"
   ],
   "note": ""
  },
  {
   "property": "C41",
   "status": "proved",
   "theorems": [
    "Obake.C41_integrate",
    "Obake.C41_throws_iff"
   ],
   "note": ""
  },
  {
   "property": "C42",
   "status": "proved",
   "theorems": [
    "Obake.C42_truncate_degree",
    "Obake.C42_truncate_p_degree",
    "Obake.C42_filtered",
    "Obake.C42_filter",
    "Obake.C42_trim",
    "Obake.C42_add_symbols"
   ],
   "note": ""
  },
  {
   "property": "C43",
   "status": "proved",
   "theorems": [
    "Obake.C43_keys",
    "Obake.C43_symbols_tags",
    "Obake.C43_codecs",
    "Obake.C43_archive_round_trip",
    "Obake.C43_archive_failed_load",
    "Obake.C43_truncated_archive",
    "Obake.C43_archive_sequence",
    "Obake.C43_round_trip",
    "Obake.C43_failed_load"
   ],
   "note": ""
  },
  {
   "property": "C44",
   "status": "proved",
   "theorems": [
    "Obake.C44_from_scalar",
    "Obake.C44_to_scalar",
    "Obake.C44_scalar_round_trip",
    "Obake.C44_same_rank",
    "Obake.C44_from_higher",
    "Obake.C44_is_single_cf"
   ],
   "note": ""
  },
  {
   "property": "C45",
   "status": "proved",
   "theorems": [
    "Obake.C45_make_polynomials_in",
    "Obake.C45_unknown_name",
    "Obake.C45_make_polynomials",
    "Obake.C45_order"
   ],
   "note": ""
  },
  {
   "property": "C46",
   "status": "proved",
   "theorems": [
    "Obake.C46_add_sub",
    "Obake.C46_scalar_add_sub",
    "Obake.C46_in_place",
    "Obake.C46_in_place_self",
    "Obake.C46_in_place_scalar",
    "Obake.C46_mul",
    "Obake.C46_part_safe_packed",
    "Obake.C46_part_safe_d_packed",
    "Obake.C46_pow",
    "Obake.C46_pow_general",
    "Obake.C46_pow_concurrent",
    "Obake.C46_diff",
    "Obake.C46_integrate",
    "Obake.C46_negate",
    "Obake.C46_scalar_mul",
    "Obake.C46_scalar_div",
    "Obake.C46_trim",
    "Obake.C46_history"
   ],
   "note": ""
  },
  {
   "property": "C47",
   "status": "proved",
   "theorems": [
    "Obake.C47_add_sub",
    "Obake.C47_in_place",
    "Obake.C47_mul"
   ],
   "note": ""
  },
  {
   "property": "C48",
   "status": "proved",
   "theorems": [
    "Obake.C48_set_truncation",
    "Obake.C48_set_truncation_p",
    "Obake.C48_unset_truncation",
    "Obake.C48_truncate",
    "Obake.C48_truncate_untruncated",
    "Obake.C48_truncate_idempotent",
    "Obake.C48_truncate_legal",
    "Obake.C48_make_p_series",
    "Obake.C48_truncation_round_trip",
    "Obake.C48_truncation_bad_index",
    "Obake.C48_make_p_series_in"
   ],
   "note": ""
  },
  {
   "property": "C49",
   "status": "proved",
   "theorems": [
    "Obake.C49_first_request_constructs",
    "Obake.C49_same_storage_iff",
    "Obake.C49_get",
    "Obake.C49_get_constructed",
    "Obake.C49_one_object",
    "Obake.C49_destroy",
    "Obake.C49_failed_allocation"
   ],
   "note": ""
  },
  {
   "property": "C50",
   "status": "proved",
   "theorems": [
    "Obake.C50_mutual_exclusion",
    "Obake.C50_flag",
    "Obake.C50_happens_before",
    "Obake.C50_progress",
    "Obake.C50_release"
   ],
   "note": ""
  },
  {
   "property": "C51",
   "status": "proved",
   "theorems": [
    "Obake.C51_d_packed_text",
    "Obake.C51_d_packed_injective",
    "Obake.C51_packed_text",
    "Obake.C51_packed_injective",
    "Obake.C51_packed_one",
    "Obake.C51_name_one_ambiguous"
   ],
   "note": ""
  },
  {
   "property": "C52",
   "status": "proved",
   "theorems": [
    "Obake.C52_rationals_tex",
    "Obake.C52_keys",
    "Obake.C52_text",
    "Obake.C52_recover",
    "Obake.C52_int_text",
    "Obake.C52_rat_text",
    "Obake.C52_rat_tex",
    "Obake.C52_integers",
    "Obake.C52_rationals",
    "Obake.C52_nested_text",
    "Obake.C52_symbol_set_text",
    "Obake.C52_symbol_set_recover",
    "Obake.C52_tag_recover",
    "Obake.C52_header"
   ],
   "note": ""
  },
  {
   "property": "C53",
   "status": "proved",
   "theorems": [
    "Obake.C53_packed_text",
    "Obake.C53_packed_injective",
    "Obake.C53_d_packed_text",
    "Obake.C53_d_packed_injective"
   ],
   "note": ""
  },
  {
   "property": "C54",
   "status": "proved",
   "theorems": [
    "Obake.C54_estimate",
    "Obake.C54_sparse_exact",
    "Obake.C54_mul",
    "Obake.C54_total",
    "Obake.C54_deterministic"
   ],
   "note": ""
  },
  {
   "property": "C55",
   "status": "proved",
   "theorems": [
    "Obake.C55_arithmetic",
    "Obake.C55_coefficients",
    "Obake.C55_constants",
    "Obake.C55_lift",
    "Obake.C55_lower",
    "Obake.C55_lower_coefficient",
    "Obake.C55_lift_lower",
    "Obake.C55_mixed_mul",
    "Obake.C55_mixed_mul_symbols",
    "Obake.C55_mixed_add",
    "Obake.C55_mixed_in_place",
    "Obake.C55_mixed_equality",
    "Obake.C55_mixed_update",
    "Obake.C55_multiply_out",
    "Obake.C55_rank_one",
    "Obake.C55_diff",
    "Obake.C55_evaluate",
    "Obake.C55_subs",
    "Obake.C55_trim",
    "Obake.C55_degree",
    "Obake.C55_integrate",
    "Obake.C55_integral"
   ],
   "note": ""
  },
  {
   "property": "C56",
   "status": "proved",
   "theorems": [
    "Obake.C56_diff",
    "Obake.C56_diff_agrees",
    "Obake.C56_diff_throws_iff",
    "Obake.C56_integrate",
    "Obake.C56_integrate_deriv"
   ],
   "note": ""
  },
  {
   "property": "C57",
   "status": "proved",
   "theorems": [
    "Obake.C57_program",
    "Obake.C57_catch",
    "Obake.C57_frame",
    "Obake.C57_torn",
    "Obake.C57_copy_assignment",
    "Obake.C57_copy_assignment_like",
    "Obake.C57_mul",
    "Obake.C57_diff",
    "Obake.C57_integrate",
    "Obake.C57_subs",
    "Obake.C57_trim",
    "Obake.C57_add_symbols",
    "Obake.C57_truncate_degree",
    "Obake.C57_truncate_p_degree",
    "Obake.C57_in_place_scalar",
    "Obake.C57_constant",
    "Obake.C57_packed_unit",
    "Obake.C57_packed_units",
    "Obake.C57_d_packed_units"
   ],
   "note": ""
  },
  {
   "property": "C58",
   "status": "proved",
   "theorems": [
    "Obake.C58_value",
    "Obake.C58_symbols",
    "Obake.C58_evaluate",
    "Obake.C58_compare",
    "Obake.C58_identity"
   ],
   "note": ""
  },
  {
   "property": "C59",
   "status": "proved",
   "theorems": [
    "Obake.C59_value",
    "Obake.C59_identity",
    "Obake.C59_precision"
   ],
   "note": ""
  },
  {
   "property": "C60",
   "status": "proved",
   "theorems": [
    "Obake.C60_no_deadlock",
    "Obake.C60_bounded",
    "Obake.C60_completes"
   ],
   "note": ""
  },
  {
   "property": "C61",
   "status": "proved",
   "theorems": [
    "Obake.C61_value",
    "Obake.C61_exact",
    "Obake.C61_equal",
    "Obake.C61_table_stats"
   ],
   "note": ""
  },
  {
   "property": "C62",
   "status": "proved",
   "theorems": [
    "Obake.C62_scalar",
    "Obake.C62_series",
    "Obake.C62_clash",
    "Obake.C62_empty"
   ],
   "note": ""
  },
  {
   "property": "C63",
   "status": "proved",
   "theorems": [
    "Obake.C63_catch",
    "Obake.C63_clash",
    "Obake.C63_frame",
    "Obake.C63_torn",
    "Obake.C63_mul",
    "Obake.C63_pow",
    "Obake.C63_diff",
    "Obake.C63_integrate",
    "Obake.C63_trim",
    "Obake.C63_add_symbols",
    "Obake.C63_subs",
    "Obake.C63_packed_natural",
    "Obake.C63_d_packed_natural",
    "Obake.C63_constant",
    "Obake.C63_generator"
   ],
   "note": ""
  },
  {
   "property": "C64",
   "status": "proved",
   "theorems": [
    "Obake.C64_text",
    "Obake.C64_coefficient",
    "Obake.C64_truncation",
    "Obake.C64_integers",
    "Obake.C64_rationals"
   ],
   "note": ""
  },
  {
   "property": "C65",
   "status": "proved",
   "theorems": [
    "Obake.C65_value",
    "Obake.C65_compare",
    "Obake.C65_no_leak",
    "Obake.C65_symbol_sets",
    "Obake.C65_truncations"
   ],
   "note": ""
  },
  {
   "property": "C66",
   "status": "proved",
   "theorems": [
    "Obake.C66_program",
    "Obake.C66_total",
    "Obake.C66_steps",
    "Obake.C66_power_series",
    "Obake.C66_equality",
    "Obake.C66_size",
    "Obake.C66_degree",
    "Obake.C66_p_degree",
    "Obake.C66_evaluate",
    "Obake.C66_diff_loop",
    "Obake.C66_defined",
    "Obake.C66_ps_defined"
   ],
   "note": ""
  },
  {
   "property": "C67",
   "status": "proved",
   "theorems": [
    "Obake.C67_monomials",
    "Obake.C67_add_sub",
    "Obake.C67_in_place",
    "Obake.C67_equality",
    "Obake.C67_mul",
    "Obake.C67_mul_estimated",
    "Obake.C67_pow",
    "Obake.C67_calculus",
    "Obake.C67_degree",
    "Obake.C67_evaluate",
    "Obake.C67_symbols",
    "Obake.C67_program",
    "Obake.C67_power_series",
    "Obake.C67_calculus_types",
    "Obake.C67_truncation",
    "Obake.C67_subs",
    "Obake.C67_subs_polynomials",
    "Obake.C67_subs_power_series",
    "Obake.C67_nested",
    "Obake.C67_nested_values"
   ],
   "note": ""
  },
  {
   "property": "C68",
   "status": "proved",
   "theorems": [
    "Obake.C68_add_sub",
    "Obake.C68_in_place",
    "Obake.C68_negate",
    "Obake.C68_mul",
    "Obake.C68_scalar_mul",
    "Obake.C68_scalar_div",
    "Obake.C68_equality"
   ],
   "note": ""
  },
  {
   "property": "C69",
   "status": "proved",
   "theorems": [
    "Obake.C69_add_sub",
    "Obake.C69_in_place",
    "Obake.C69_negate",
    "Obake.C69_scalar_mul",
    "Obake.C69_scalar_div",
    "Obake.C69_mul",
    "Obake.C69_mul_bound"
   ],
   "note": ""
  },
  {
   "property": "C70",
   "status": "proved",
   "theorems": [
    "Obake.C70_add_term",
    "Obake.C70_convert",
    "Obake.C70_add_sub",
    "Obake.C70_in_place",
    "Obake.C70_self",
    "Obake.C70_negate",
    "Obake.C70_scalar_mul",
    "Obake.C70_scalar_div",
    "Obake.C70_filter",
    "Obake.C70_filtered",
    "Obake.C70_add_symbols",
    "Obake.C70_mul"
   ],
   "note": ""
  },
  {
   "property": "C71",
   "status": "proved",
   "theorems": [
    "Obake.C71_add_term",
    "Obake.C71_convert",
    "Obake.C71_add_sub",
    "Obake.C71_float_add_sub",
    "Obake.C71_float_comm",
    "Obake.C71_in_place",
    "Obake.C71_float_in_place",
    "Obake.C71_self",
    "Obake.C71_negate",
    "Obake.C71_scalar_mul",
    "Obake.C71_scalar_div",
    "Obake.C71_scalar",
    "Obake.C71_equality",
    "Obake.C71_self_equality"
   ],
   "note": ""
  },
  {
   "property": "C72",
   "status": "proved",
   "theorems": [
    "Obake.C72_mul",
    "Obake.C72_truncated_mul",
    "Obake.C72_commutative",
    "Obake.C72_single_pair",
    "Obake.C72_single_term",
    "Obake.C72_monomials",
    "Obake.C72_power_series"
   ],
   "note": ""
  },
  {
   "property": "C73",
   "status": "proved",
   "theorems": [
    "Obake.C73_construct",
    "Obake.C73_add",
    "Obake.C73_add_comm",
    "Obake.C73_add_closed",
    "Obake.C73_add_assoc",
    "Obake.C73_in_place",
    "Obake.C73_in_place_of_add",
    "Obake.C73_mul_only",
    "Obake.C73_mul",
    "Obake.C73_mul_comm",
    "Obake.C73_in_place_mul",
    "Obake.C73_div_only",
    "Obake.C73_div",
    "Obake.C73_equality",
    "Obake.C73_pow",
    "Obake.C73_is_cf",
    "Obake.C73_no_merge"
   ],
   "note": ""
  },
  {
   "property": "C74",
   "status": "proved",
   "theorems": [
    "Obake.Xoro.C74_period",
    "Obake.Xoro.C74_zero",
    "Obake.Xoro.C74_injective",
    "Obake.Xoro.C74_transitive",
    "Obake.Xoro.C74_uniform",
    "Obake.Xoro.C74_wide",
    "Obake.Xoro.C74_seeds",
    "Obake.Xoro.C74_words"
   ],
   "note": ""
  },
  {
   "property": "C75",
   "status": "proved",
   "theorems": [
    "Obake.C75_diff_terms",
    "Obake.C75_diff",
    "Obake.C75_integrate",
    "Obake.C75_trim",
    "Obake.C75_truncate_degree",
    "Obake.C75_truncate_p_degree"
   ],
   "note": ""
  },
  {
   "property": "C76",
   "status": "proved",
   "theorems": [
    "Obake.C76_pow",
    "Obake.C76_exact",
    "Obake.C76_concurrent",
    "Obake.C76_commutative",
    "Obake.C76_first",
    "Obake.C76_not_cached"
   ],
   "note": ""
  },
  {
   "property": "C77",
   "status": "proved",
   "theorems": [
    "Obake.C77_add_sub",
    "Obake.C77_clash",
    "Obake.C77_in_place",
    "Obake.C77_self",
    "Obake.C77_scalar",
    "Obake.C77_scalar_add_sub",
    "Obake.C77_negate",
    "Obake.C77_truncate",
    "Obake.C77_set_truncation",
    "Obake.C77_set_truncation_p",
    "Obake.C77_mul",
    "Obake.C77_part_safe_packed",
    "Obake.C77_part_safe_d_packed",
    "Obake.C77_pow",
    "Obake.C77_pow_exact",
    "Obake.C77_pow_concurrent",
    "Obake.C77_diff",
    "Obake.C77_integrate"
   ],
   "note": ""
  },
  {
   "property": "C78",
   "status": "proved",
   "theorems": [
    "Obake.C78_ps_scalar",
    "Obake.C78_ps_series",
    "Obake.C78_evaluate",
    "Obake.C78_keys",
    "Obake.C78_order",
    "Obake.C78_subs_scalar",
    "Obake.C78_subs_single",
    "Obake.C78_subs_poly",
    "Obake.C78_factor"
   ],
   "note": ""
  },
  {
   "property": "C79",
   "status": "proved",
   "theorems": [
    "Obake.C79_diff",
    "Obake.C79_diff_algorithm",
    "Obake.C79_diff_twice",
    "Obake.C79_integrate",
    "Obake.C79_evaluate",
    "Obake.C79_evaluate_copies",
    "Obake.C79_evaluate_inner_copies",
    "Obake.C79_subs",
    "Obake.C79_subs_copies",
    "Obake.C79_subs_only",
    "Obake.C79_degree",
    "Obake.C79_with_degree",
    "Obake.C79_diff_selected",
    "Obake.C79_diff_only",
    "Obake.C79_integrate_only"
   ],
   "note": ""
  },
  {
   "property": "C80",
   "status": "proved",
   "theorems": [
    "Obake.C80_value",
    "Obake.C80_flat",
    "Obake.C80_compare",
    "Obake.C80_identity",
    "Obake.C80_exceptions",
    "Obake.C80_types"
   ],
   "note": ""
  },
  {
   "property": "C81",
   "status": "proved",
   "theorems": [
    "Obake.C81_diff",
    "Obake.C81_integrate",
    "Obake.C81_integrate_truncate",
    "Obake.C81_integrate_not_truncated"
   ],
   "note": ""
  },
  {
   "property": "C82",
   "status": "proved",
   "theorems": [
    "Obake.C82_defined",
    "Obake.C82_destroy_iff",
    "Obake.C82_destroy",
    "Obake.C82_destroy_moved",
    "Obake.C82_history",
    "Obake.C82_add",
    "Obake.C82_in_place",
    "Obake.C82_in_place_self",
    "Obake.C82_mul",
    "Obake.C82_scalar",
    "Obake.C82_transform",
    "Obake.C82_convert",
    "Obake.C82_load",
    "Obake.C82_failed_load",
    "Obake.C82_total_size",
    "Obake.C82_flow",
    "Obake.C82_ps_flow",
    "Obake.C82_library",
    "Obake.C82_program",
    "Obake.C82_catch"
   ],
   "note": ""
  },
  {
   "property": "C83",
   "status": "proved",
   "theorems": [
    "Obake.C83_reserve",
    "Obake.C83_find",
    "Obake.C83_request"
   ],
   "note": ""
  }
 ]
}