{
 "claims": [
  {
   "property": "C01",
   "status": "proved",
   "theorems": [
    "Spiff.plain_unchanged",
    "Spiff.plain_succeeds"
   ],
   "note": ""
  },
  {
   "property": "C02",
   "status": "proved",
   "theorems": [
    "Spiff.merge_plain",
    "Spiff.merge_plain_succeeds",
    "Spiff.unstable_names"
   ],
   "note": "for documents in the range stated by the property; unstable_names shows why list entries need stable names"
  },
  {
   "property": "C03",
   "status": "proved",
   "theorems": [
    "Spiff.stub_lookup_some",
    "Spiff.stub_lookup_none",
    "Spiff.later_stubs_irrelevant"
   ],
   "note": ""
  },
  {
   "property": "C04",
   "status": "proved",
   "theorems": [
    "Spiff.map_fields",
    "Spiff.map_keys",
    "Spiff.default_fills_gap"
   ],
   "note": ""
  },
  {
   "property": "C05",
   "status": "proved",
   "theorems": [
    "Spiff.stub_no_effect",
    "Spiff.scalar_kept",
    "Spiff.default_fills_gap",
    "Spiff.map_fields"
   ],
   "note": ""
  },
  {
   "property": "C06",
   "status": "proved",
   "theorems": [
    "Spiff.merged_kept",
    "Spiff.stub_no_effect",
    "Spiff.scalar_kept",
    "Spiff.preferred_value",
    "Spiff.preferred_scalar_overridden"
   ],
   "note": "preferred_scalar_overridden proves the stated exception"
  },
  {
   "property": "C07",
   "status": "proved",
   "theorems": [
    "Spiff.result_fixpoint",
    "Spiff.reprocess_fixpoint",
    "Spiff.passes_irrelevant",
    "Spiff.pass_terminates",
    "Spiff.fuel_irrelevant",
    "Spiff.nan_diverges"
   ],
   "note": "nan_diverges proves the stated exception"
  },
  {
   "property": "C08",
   "status": "proved",
   "theorems": [
    "Spiff.unresolved_exact",
    "Spiff.success_iff",
    "Spiff.flowDoc_success",
    "Spiff.interpolated_syntax_error_unreported"
   ],
   "note": ""
  },
  {
   "property": "C09",
   "status": "proved",
   "theorems": [
    "Spiff.Props.prepareStubs_ok_iff",
    "Spiff.Props.prepareStubs_error_iff",
    "Spiff.Props.prepareStubs_partial_mode",
    "Spiff.Props.cascade_template"
   ],
   "note": ""
  },
  {
   "property": "C10",
   "status": "proved",
   "theorems": [
    "Spiff.Props.output_without_temporary",
    "Spiff.Props.output_no_temporary",
    "Spiff.Props.stub_without_local",
    "Spiff.Props.cleanup_root",
    "Spiff.Props.merge_output_no_temporary",
    "Spiff.Props.merge_output_exact"
   ],
   "note": ""
  },
  {
   "property": "C11",
   "status": "proved",
   "theorems": [
    "Spiff.Props.state_descendants",
    "Spiff.Props.state_document",
    "Spiff.Props.state_document_list",
    "Spiff.Props.nested_state_lost"
   ],
   "note": "the property as stated (top level marks decide); nested_state_lost proves that marks below unmarked nodes are lost"
  },
  {
   "property": "C12",
   "status": "proved",
   "theorems": [
    "Spiff.Props.discardTemporary_idem",
    "Spiff.Props.discardLocal_idem",
    "Spiff.Props.discard_comm",
    "Spiff.Props.determineState_idem",
    "Spiff.Props.discardTags_idem"
   ],
   "note": ""
  },
  {
   "property": "C13",
   "status": "proved",
   "theorems": [
    "Spiff.Props.escaped_not_evaluated",
    "Spiff.Props.escaped_unescape",
    "Spiff.Props.unescaped_evaluated",
    "Spiff.Props.escape_levels",
    "Spiff.Props.plain_string_untouched",
    "Spiff.Props.unescape_document",
    "Spiff.Props.root_not_unescaped",
    "Spiff.escaped_key_unescape",
    "Spiff.other_key_unchanged",
    "Spiff.escaped_key_levels",
    "Spiff.unescape_map_fields",
    "Spiff.escaped_key_collision"
   ],
   "note": ""
  },
  {
   "property": "C14",
   "status": "proved",
   "theorems": [
    "Spiff.interpolation_complete",
    "Spiff.not_converted_unchanged",
    "Spiff.interpolation_wellformed",
    "Spiff.interpolation_plain",
    "Spiff.interpolation_unescape",
    "Spiff.interpolation_leading_quote"
   ],
   "note": ""
  },
  {
   "property": "C15",
   "status": "proved",
   "theorems": [
    "Spiff.find_iff_reaches",
    "Spiff.reaches_unique",
    "Spiff.find_compose",
    "Spiff.find_panics_iff",
    "Spiff.find_crash_witness"
   ],
   "note": ""
  },
  {
   "property": "C16",
   "status": "proved",
   "theorems": [
    "Spiff.equiv_iff_same_content",
    "Spiff.equiv_refl",
    "Spiff.equiv_symm",
    "Spiff.equiv_trans",
    "Spiff.deepEq_iff_identical",
    "Spiff.nan_not_equivalent"
   ],
   "note": ""
  },
  {
   "property": "C26",
   "status": "proved",
   "theorems": [
    "Spiff.ip_add_nonneg",
    "Spiff.ip_sub_small",
    "Spiff.ip_sub_partial",
    "Spiff.ip_sub_wrong",
    "Spiff.ip4_add",
    "Spiff.ip4_add_overflow",
    "Spiff.ip4_sub_small",
    "Spiff.ip_diff",
    "Spiff.ip4_diff",
    "Spiff.ip4_add_diff",
    "Spiff.ip4_add_diff_wrong",
    "Spiff.ip_inc"
   ],
   "note": ""
  },
  {
   "property": "C51",
   "status": "proved",
   "theorems": [
    "Spiff.ipset_selects",
    "Spiff.ipset_sound",
    "Spiff.range_nodup",
    "Spiff.ipRange_all",
    "Spiff.static_ips_selects"
   ],
   "note": ""
  },
  {
   "property": "C58",
   "status": "proved",
   "theorems": [
    "Spiff.min_ip_num",
    "Spiff.max_ip_num",
    "Spiff.num_ip_v4",
    "Spiff.num_ip_v6_zero",
    "Spiff.contains_iff_between",
    "Spiff.contains_ip_v4"
   ],
   "note": ""
  },
  {
   "property": "C27",
   "status": "proved",
   "theorems": [
    "Spiff.int_ops_mod",
    "Spiff.int_ops_exact",
    "Spiff.int_div_mod",
    "Spiff.div_zero",
    "Spiff.arith_no_panic",
    "Spiff.number_operands",
    "Spiff.float_ops",
    "Spiff.extraBits_least",
    "Spiff.cidr_division",
    "Spiff.cidr_division_nonpositive",
    "Spiff.cidr_multiplication",
    "Spiff.cidr_multiplication_negative_wrong",
    "Spiff.ip_plus",
    "Spiff.ip_minus_ip",
    "Spiff.cidr_plus"
   ],
   "note": ""
  },
  {
   "property": "C28",
   "status": "proved",
   "theorems": [
    "Spiff.eq_iff",
    "Spiff.eq_ne_result",
    "Spiff.comparable_iff",
    "Spiff.eq_same_content",
    "Spiff.eq_self",
    "Spiff.float_never_equal",
    "Spiff.eq_asymmetric",
    "Spiff.order_spec",
    "Spiff.order_other"
   ],
   "note": ""
  },
  {
   "property": "C29",
   "status": "proved",
   "theorems": [
    "Spiff.toBool_iff",
    "Spiff.truth_tables",
    "Spiff.bitwise",
    "Spiff.short_circuit",
    "Spiff.short_circuit_agrees",
    "Spiff.no_short_circuit_int"
   ],
   "note": ""
  },
  {
   "property": "C30",
   "status": "proved",
   "theorems": [
    "Spiff.uniq_first_occurrences",
    "Spiff.uniq_spec",
    "Spiff.intersect_spec",
    "Spiff.intersect_other",
    "Spiff.intersect_nil_slice",
    "Spiff.compact_spec",
    "Spiff.compact_idem",
    "Spiff.index_list",
    "Spiff.lastindex_list",
    "Spiff.index_string",
    "Spiff.contains_iff_index",
    "Spiff.contains_map"
   ],
   "note": "intersect_nil_slice proves the stated exception"
  },
  {
   "property": "C31",
   "status": "proved",
   "theorems": [
    "Spiff.sort_spec",
    "Spiff.sort_by_spec",
    "Spiff.sort_idem"
   ],
   "note": "Go's sort.SliceStable is modelled by a stable insertion sort; a comparison function is any strict weak order"
  },
  {
   "property": "C32",
   "status": "proved",
   "theorems": [
    "Spiff.reverse_spec",
    "Spiff.reverse_involutive"
   ],
   "note": "the result; the in place modification of the argument is C59"
  },
  {
   "property": "C33",
   "status": "proved",
   "theorems": [
    "Spiff.join_split",
    "Spiff.split_parts",
    "Spiff.split_limit",
    "Spiff.split_by_length",
    "Spiff.split_by_length_invalid",
    "Spiff.join_spec",
    "Spiff.join_panic"
   ],
   "note": ""
  },
  {
   "property": "C34",
   "status": "proved",
   "theorems": [
    "Spiff.substr_spec",
    "Spiff.substr_no_panic",
    "Spiff.slice_spec",
    "Spiff.slice_from",
    "Spiff.slice_to",
    "Spiff.slice_no_panic",
    "Spiff.element_list",
    "Spiff.element_list_string",
    "Spiff.element_map",
    "Spiff.element_no_panic"
   ],
   "note": ""
  },
  {
   "property": "C35",
   "status": "proved",
   "theorems": [
    "Spiff.range_spec",
    "Spiff.range_diverges",
    "Spiff.range_min_empty"
   ],
   "note": "range_diverges and range_min_empty prove the stated exceptions"
  },
  {
   "property": "C36",
   "status": "proved",
   "theorems": [
    "Spiff.list_to_map_spec",
    "Spiff.list_to_map_default",
    "Spiff.keys_spec",
    "Spiff.keys_order_independent",
    "Spiff.makemap_list_spec",
    "Spiff.makemap_pairs_spec",
    "Spiff.makemap_odd"
   ],
   "note": ""
  },
  {
   "property": "C37",
   "status": "proved",
   "theorems": [
    "Spiff.concat_maps",
    "Spiff.deepmerge_spec",
    "Spiff.funcDeepmerge_keys",
    "Spiff.deepmerge_rightmost",
    "Spiff.deepmerge_unit",
    "Spiff.deepmerge_not_assoc",
    "Spiff.deepmerge_content"
   ],
   "note": ""
  },
  {
   "property": "C38",
   "status": "proved",
   "theorems": [
    "Spiff.base64_lines",
    "Spiff.base64_roundtrip"
   ],
   "note": "the RFC 4648 codec of Go's standard library is modelled, too"
  },
  {
   "property": "C54",
   "status": "proved",
   "theorems": [
    "Spiff.replace_spec",
    "Spiff.replaced_unique",
    "Spiff.replace_all",
    "Spiff.replace_empty_pattern",
    "Spiff.processReplace_const"
   ],
   "note": ""
  },
  {
   "property": "C17",
   "status": "proved",
   "theorems": [
    "Spiff.compare_empty_iff",
    "Spiff.compare_with_jobs",
    "Spiff.compare_crash_iff",
    "Spiff.compare_same_content",
    "Spiff.compare_self",
    "Spiff.compare_asymmetric",
    "Spiff.compare_self_differs",
    "Spiff.compare_misses",
    "Spiff.diff_same_iff",
    "Spiff.diff_counts"
   ],
   "note": "diff_same_iff and diff_counts are about the command diff on files; the three before prove the stated exceptions"
  },
  {
   "property": "C18",
   "status": "proved",
   "theorems": [
    "Spiff.sanitize_fails_iff",
    "Spiff.normalize_sanitize",
    "Spiff.json_roundtrip",
    "Spiff.normalize_json",
    "Spiff.normalize_fails_iff",
    "Spiff.sanitize_normalize",
    "Spiff.timestamp_lost"
   ],
   "note": "timestamp_lost proves the stated exception; []byte values are not modelled"
  },
  {
   "property": "C19",
   "status": "proved",
   "theorems": [
    "Spiff.set_tag_succeeds_iff",
    "Spiff.set_tag_found",
    "Spiff.set_tag_others",
    "Spiff.finished_tag_kept",
    "Spiff.push_keeps",
    "Spiff.tag_spelling",
    "Spiff.doc_named_tag_lost_defect",
    "Spiff.predefined_colon_tag_lost_defect"
   ],
   "note": "the last two prove the stated exceptions"
  },
  {
   "property": "C20",
   "status": "proved",
   "theorems": [
    "Spiff.reset_stream"
   ],
   "note": ""
  },
  {
   "property": "C21",
   "status": "proved",
   "theorems": [
    "Spiff.document_history",
    "Spiff.stale_document_defect"
   ],
   "note": "stale_document_defect proves the stated exception"
  },
  {
   "property": "C60",
   "status": "proved",
   "theorems": [
    "Spiff.tag_reference",
    "Spiff.exact_tag_wins",
    "Spiff.tag_root_reference",
    "Spiff.colon_reference_defect"
   ],
   "note": "the search for the path in the node of a tag is a parameter (it is modelled for C15)"
  },
  {
   "property": "C22",
   "status": "proved",
   "theorems": [
    "Spiff.temp_same_name",
    "Spiff.temp_different_names",
    "Spiff.temp_content",
    "Spiff.temp_removed",
    "Spiff.temp_leak_defect",
    "Spiff.temp_denied"
   ],
   "note": "the hash function and the choice of new names are parameters; temp_leak_defect proves the stated exception"
  },
  {
   "property": "C23",
   "status": "proved",
   "theorems": [
    "Spiff.read_result",
    "Spiff.uncached_read",
    "Spiff.other_reads"
   ],
   "note": "the world (file contents at each time) is arbitrary; URLs are treated like files"
  },
  {
   "property": "C57",
   "status": "proved",
   "theorems": [
    "Spiff.exec_cached",
    "Spiff.exec_independent",
    "Spiff.exec_reused",
    "Spiff.exec_uncached",
    "Spiff.exec_confused_defect",
    "Spiff.exec_failure_forgotten_defect"
   ],
   "note": "the hash is a parameter (assumed injective for exec_independent); the last two prove the stated exceptions"
  },
  {
   "property": "C48",
   "status": "proved",
   "theorems": [
    "Spiff.state_crash_safe",
    "Spiff.state_update_ok",
    "Spiff.state_update_failed",
    "Spiff.state_lost_after_crash_defect",
    "Spiff.state_lost_rename_fails_defect"
   ],
   "note": "file operations other than writing are atomic; the last two prove the stated exceptions"
  },
  {
   "property": "C24",
   "status": "proved",
   "theorems": [
    "Spiff.os_allowed_iff",
    "Spiff.file_allowed_iff",
    "Spiff.contexts_unchanged",
    "Spiff.context_chain"
   ],
   "note": ""
  },
  {
   "property": "C25",
   "status": "proved",
   "theorems": [
    "Spiff.feature_enabled_iff",
    "Spiff.set_accepts_iff",
    "Spiff.set_rejected",
    "Spiff.unknown_feature_disabled",
    "Spiff.new_features_fresh",
    "Spiff.feature_other_root",
    "Spiff.feature_setting_leaks_defect"
   ],
   "note": "feature_setting_leaks_defect proves the stated exception"
  },
  {
   "property": "C44",
   "status": "proved",
   "theorems": [
    "Spiff.function_lookup",
    "Spiff.context_functions",
    "Spiff.control_kept",
    "Spiff.register_control_ok",
    "Spiff.register_control_fails",
    "Spiff.failed_registration_effect_defect",
    "Spiff.template_option_ambiguity_defect"
   ],
   "note": "the last two prove the stated exceptions"
  },
  {
   "property": "C52",
   "status": "proved",
   "theorems": [
    "Spiff.join_all",
    "Spiff.join_assoc",
    "Spiff.join_default",
    "Spiff.cleanup_all"
   ],
   "note": ""
  },
  {
   "property": "C53",
   "status": "proved",
   "theorems": [
    "Spiff.Mask.toFlags_faithful",
    "Spiff.Mask.toFlags_injective",
    "Spiff.Mask.addFlags_algebra",
    "Spiff.Mask.default_inject",
    "Spiff.Mask.overridden_spec"
   ],
   "note": "on the 64 bit masks of the Go code; toFlags_faithful and toFlags_injective justify the record used in the other models"
  },
  {
   "property": "C47",
   "status": "proved",
   "theorems": [
    "Spiff.values_visible",
    "Spiff.values_order_independent",
    "Spiff.setAt_found",
    "Spiff.setAt_other",
    "Spiff.setAt_none_iff",
    "Spiff.path_of_name",
    "Spiff.path_plain",
    "Spiff.createValues_spec",
    "Spiff.values_order_defect",
    "Spiff.definitions_accepted",
    "Spiff.last_definition_wins",
    "Spiff.value_recognized"
   ],
   "note": "values_order_defect proves the stated exception"
  },
  {
   "property": "C45",
   "status": "proved",
   "theorems": [
    "Spiff.validators_boolean",
    "Spiff.and_spec",
    "Spiff.or_rejects",
    "Spiff.or_single_defect",
    "Spiff.bang_negates",
    "Spiff.map_order_independent",
    "Spiff.check_validate",
    "Spiff.order_int",
    "Spiff.order_string",
    "Spiff.order_mismatch",
    "Spiff.type_condition",
    "Spiff.empty_condition",
    "Spiff.value_conditions"
   ],
   "note": "lambda, regexp, DNS, IP and registered validators are arbitrary elementary conditions; or_single_defect proves the stated exception"
  },
  {
   "property": "C46",
   "status": "proved",
   "theorems": [
    "Spiff.sync_evaluation",
    "Spiff.sync_history",
    "Spiff.sync_start",
    "Spiff.sync_bounded",
    "Spiff.sync_revived_defect",
    "Spiff.sync_overflow_defect",
    "Spiff.sync_clock_defect"
   ],
   "note": "the clock and the outcomes of the sub expressions are arbitrary in every evaluation; the last three prove the stated exceptions"
  },
  {
   "property": "C42",
   "status": "proved",
   "theorems": [
    "Spiff.control_recognition",
    "Spiff.if_spec",
    "Spiff.switch_spec",
    "Spiff.switch_malformed",
    "Spiff.selected_spec",
    "Spiff.type_spec",
    "Spiff.merge_control_spec",
    "Spiff.flowControl_none",
    "Spiff.flowControl_flags",
    "Spiff.flowControl_invalid",
    "Spiff.if_needs_both_branches",
    "Spiff.switch_match_no_lambda"
   ],
   "note": "evaluation of lambdas is a parameter; the last three prove the stated exceptions"
  },
  {
   "property": "C43",
   "status": "proved",
   "theorems": [
    "Spiff.forLoop_combos",
    "Spiff.mem_combos",
    "Spiff.combos_sorted",
    "Spiff.for_list",
    "Spiff.for_map",
    "Spiff.for_not_done",
    "Spiff.for_constant",
    "Spiff.for_variables",
    "Spiff.for_range",
    "Spiff.for_loop_order",
    "Spiff.for_order_independent",
    "Spiff.for_variable_key",
    "Spiff.for_errors",
    "Spiff.for_empty_range",
    "Spiff.for_constant_nil_key",
    "Spiff.for_map_variable",
    "Spiff.for_list_variable"
   ],
   "note": "evaluation of the body template is a parameter; the last two prove the stated exceptions"
  },
  {
   "property": "C49",
   "status": "proved",
   "theorems": [
    "Spiff.reference_innermost",
    "Spiff.reference_unknown",
    "Spiff.reference_found_iff",
    "Spiff.outer_scopes_irrelevant",
    "Spiff.local_scope_reference",
    "Spiff.scope_reference",
    "Spiff.ctx_not_hidden",
    "Spiff.absolute_reference",
    "Spiff.doc_reference",
    "Spiff.root_reference",
    "Spiff.hidden_without_fallback"
   ],
   "note": "DefaultEnvironment.FindReference/FindFromRoot over arbitrary scope stacks; hidden_without_fallback is a concrete witness that an inner field hides an outer one even if the rest of the path exists only there."
  },
  {
   "property": "C41",
   "status": "proved",
   "theorems": [
    "Spiff.or_first",
    "Spiff.or_second",
    "Spiff.or_later",
    "Spiff.or_is_iff",
    "Spiff.or_assoc",
    "Spiff.validOr_first",
    "Spiff.validOr_second",
    "Spiff.validOr_later",
    "Spiff.validOr_unresolved_defect"
   ],
   "note": "compositional evaluator over all expression forms of Model/Eval.lean; associativity up to residual expressions and additional info; the last theorem proves the stated exception"
  },
  {
   "property": "C55",
   "status": "proved",
   "theorems": [
    "Spiff.merge_value",
    "Spiff.merge_fails_iff",
    "Spiff.merge_none",
    "Spiff.merge_document_independent",
    "Spiff.merge_node",
    "Spiff.merge_missing"
   ],
   "note": "the evaluator is plugged into the flow model (exLang); strings of stubs that are expressions again are excluded in merge_node"
  },
  {
   "property": "C56",
   "status": "proved",
   "theorems": [
    "Spiff.early_result_final",
    "Spiff.residual_equivalent",
    "Spiff.delayed_evaluation",
    "Spiff.residual_has_cause",
    "Spiff.partial_undefined_defect",
    "Spiff.expansion_defect"
   ],
   "note": "compositional evaluator; outcomes agree unless one of the evaluations crashes (Go panic); residual_has_cause covers expressions without local scopes, slices and qualified expressions; the last two theorems prove the stated exceptions"
  },
  {
   "property": "C40",
   "status": "proved",
   "theorems": [
    "Spiff.call_runs_iff",
    "Spiff.call_binds",
    "Spiff.curry_full",
    "Spiff.curry_named",
    "Spiff.variadic_curry_defect",
    "Spiff.auto_curry",
    "Spiff.no_auto_curry",
    "Spiff.lambda_defaults",
    "Spiff.lambda_fails_iff",
    "Spiff.default_frozen",
    "Spiff.call_evaluates_body"
   ],
   "note": "Body evaluation is abstract; named arguments for currying are names, not indices (indices shift)."
  },
  {
   "property": "C39",
   "status": "proved",
   "theorems": [
    "Spiff.visit_total",
    "Spiff.mapping_order_independent",
    "Spiff.mapping_succeeds_iff",
    "Spiff.mapping_fails_iff",
    "Spiff.mapping_postponed_iff",
    "Spiff.mapping_unsupported",
    "Spiff.map_list_value",
    "Spiff.select_list_value",
    "Spiff.select_map_value",
    "Spiff.map_map_value",
    "Spiff.sum_value",
    "Spiff.summed_unique",
    "Spiff.sum_unsupported",
    "Spiff.mapping_crash",
    "Spiff.mapping_no_crash",
    "Spiff.mapping_operands",
    "Spiff.sum_operands",
    "Spiff.sum_stops"
   ],
   "note": "The lambda is an arbitrary function on argument lists (its binding is C40); source names of created nodes are a parameter."
  },
  {
   "property": "C50",
   "status": "proved",
   "theorems": [
    "Spiff.new_entries_inserted",
    "Spiff.merge_adds_no_duplicates",
    "Spiff.list_merge_spliced",
    "Spiff.key_tag",
    "Spiff.index_key_defect",
    "Spiff.colon_key_defect",
    "Spiff.key_tag_order_defect"
   ],
   "note": "keys of the form [n] or with a colon excluded; the defects show that this is necessary"
  },
  {
   "property": "C59",
   "status": "proved",
   "theorems": [
    "Spiff.append_reads",
    "Spiff.append_preserves",
    "Spiff.append_full_preserves",
    "Spiff.append_operand",
    "Spiff.lists_are_values",
    "Spiff.inPlace_reads",
    "Spiff.inPlace_other",
    "Spiff.inPlace_changes_argument_defect",
    "Spiff.build_reads",
    "Spiff.concat_shared_defect",
    "Spiff.lists_not_values_defect"
   ],
   "note": "lists_are_values is an invariant over arbitrary histories; the three _defect theorems show where the code departs from value semantics."
  },
  {
   "property": "C61",
   "status": "proved",
   "theorems": [
    "Spiff.grammar_wellFormed",
    "Spiff.grammar_total",
    "Spiff.parse_complete",
    "Spiff.parse_total"
   ],
   "note": "big-step semantics of the generated parser: existence of a result is termination (a left recursive rule has none); memory and time are not modelled"
  },
  {
   "property": "C62",
   "status": "proved",
   "theorems": [
    "Spiff.parse_shape",
    "Spiff.parse_precedence",
    "Spiff.parse_crash",
    "Spiff.number_unconvertible",
    "Spiff.buildNumber_int",
    "Spiff.parse_numbers_ok"
   ],
   "note": "stack typing of all 107 rules, checked by abstract execution whose soundness is proved; strconv.ParseFloat is a parameter; the texts of tokens are those of ASCII sources"
  },
  {
   "property": "C63",
   "status": "proved",
   "theorems": [
    "Spiff.print_parse",
    "Spiff.print_parse_prefer",
    "Spiff.print_roundtrip",
    "Spiff.ungroup_regroup",
    "Spiff.print_merge_replace",
    "Spiff.print_merge_required",
    "Spiff.print_merge_none",
    "Spiff.print_slice",
    "Spiff.print_half_range",
    "Spiff.print_control",
    "Spiff.print_backslash",
    "Spiff.print_sync",
    "Spiff.print_projection",
    "Spiff.print_const_index"
   ],
   "note": "Printable (Spec/Print.lean) lists the expressions; parsing is the big-step semantics of the grammar; the theorems print_* behind ungroup_regroup prove the stated exceptions; floats are not covered (strconv)"
  },
  {
   "property": "C64",
   "status": "proved",
   "theorems": [
    "Spiff.defined_spec",
    "Spiff.valid_spec",
    "Spiff.require_spec",
    "Spiff.optional_spec",
    "Spiff.catch_spec",
    "Spiff.stub_spec",
    "Spiff.stub_other",
    "Spiff.intrinsics_example"
   ],
   "note": "arguments whose evaluation panics are excluded for defined and valid; catch without lambda; the expression left by require/defined/valid is the call itself"
  },
  {
   "property": "C65",
   "status": "proved",
   "theorems": [
    "Spiff.reference_spec",
    "Spiff.qualified_spec",
    "Spiff.dynamic_spec",
    "Spiff.dynamic_index",
    "Spiff.dynamic_field",
    "Spiff.dynamic_other",
    "Spiff.selection_example"
   ],
   "note": "lookups in the scope of the expression are a parameter (Bind; the scopes are C17/C46), lookups in a value are those of C15; index paths with a nested list as single entry and lists of 2^63 entries excluded"
  },
  {
   "property": "C66",
   "status": "proved",
   "theorems": [
    "Spiff.written_read",
    "Spiff.written_meaning",
    "Spiff.partial_output_equivalent",
    "Spiff.left_printable",
    "Spiff.partial_output_read",
    "Spiff.partial_output_differs",
    "Spiff.partial_output_example"
   ],
   "note": "for the ordinary expressions of C56 (no //, ~~, list expansion, dynamic references, intrinsic functions, lambdas); the tree of the parser and the evaluated expression are related by toEx; partial_output_differs is the defect of the code with dropped parentheses"
  },
  {
   "property": "C67",
   "status": "proved",
   "theorems": [
    "Spiff.inputs_read",
    "Spiff.inputs_accepted",
    "Spiff.merge_output",
    "Spiff.merge_ok_iff",
    "Spiff.selected_fields",
    "Spiff.printed_iff",
    "Spiff.components_iff",
    "Spiff.json_empty_lost_defect",
    "Spiff.feature_off_ignored_defect",
    "Spiff.select_crash_defect",
    "Spiff.missing_bindings_ignored_defect"
   ],
   "note": "the scanner and emitter of YAML, the processing of one document (C01-C11) and the evaluation of --evaluate are parameters; the defect theorems prove the stated exceptions"
  },
  {
   "property": "C68",
   "status": "proved",
   "theorems": [
    "Spiff.merge_silent",
    "Spiff.convert_silent",
    "Spiff.merge_files",
    "Spiff.merge_state",
    "Spiff.state_reread",
    "Spiff.failed_run_state",
    "Spiff.failed_run_updates_state_defect"
   ],
   "note": "state_reread assumes that the YAML library reads back what it writes for this document; failed_run_updates_state_defect proves the stated exception; crash points while the state file is written are covered by C48"
  },
  {
   "property": "C69",
   "status": "proved",
   "theorems": [
    "Spiff.process_is_merge",
    "Spiff.convert_ok_iff",
    "Spiff.convert_is_merge",
    "Spiff.process_missing_document_defect",
    "Spiff.process_stdin_twice_defect"
   ],
   "note": "the last two prove the stated exceptions"
  },
  {
   "property": "C70",
   "status": "proved",
   "theorems": [
    "Spiff.projection_spec",
    "Spiff.projection_plain",
    "Spiff.projection_other",
    "Spiff.projection_path",
    "Spiff.projection_unresolved_defect",
    "Spiff.projection_not_final_defect",
    "Spiff.projection_index_defect",
    "Spiff.projection_example"
   ],
   "note": "the chain is any expression evaluated for the entry; paths: entries for which the path leaves the bounds of a list (a crash, C15) are excluded; the defects prove the stated exceptions"
  },
  {
   "property": "C71",
   "status": "proved",
   "theorems": [
    "Spiff.dns_conditions",
    "Spiff.dns_long_label_defect"
   ],
   "note": "the regular expressions are modelled with their language (Mathlib); matching by Go's regexp package is trusted to be membership"
  },
  {
   "property": "C72",
   "status": "proved",
   "theorems": [
    "Spiff.read_documents",
    "Spiff.read_stable",
    "Spiff.read_some_document",
    "Spiff.read_no_document",
    "Spiff.unknown_alias",
    "Spiff.assigned_key",
    "Spiff.text_keys",
    "Spiff.anchor_example",
    "Spiff.anchorExample_tame",
    "Spiff.alias_after_anchor_defect",
    "Spiff.nested_anchor_loop_defect",
    "Spiff.nested_anchor_value_defect",
    "Spiff.quoted_null_document_defect",
    "Spiff.quoted_null_alias_defect",
    "Spiff.alias_across_documents_defect",
    "Spiff.duplicate_key_defect",
    "Spiff.collection_key_defect"
   ],
   "note": "the input are the events of the parser; the defects prove the stated exceptions"
  },
  {
   "property": "C73",
   "status": "proved",
   "theorems": [
    "Spiff.plain_scalar",
    "Spiff.quoted_scalar",
    "Spiff.plain_total",
    "Spiff.tag_ignored_defect",
    "Spiff.leading_zero_defect",
    "Spiff.norway_defect",
    "Spiff.double_sign_defect"
   ],
   "note": "strconv.ParseFloat, the forms of timestamps and base64 are parameters; the defects prove the stated exceptions"
  },
  {
   "property": "C74",
   "status": "proved",
   "theorems": [
    "Spiff.write_read",
    "Spiff.plain_text_iff",
    "Spiff.selected_plain",
    "Spiff.write_order",
    "Spiff.write_sorted",
    "Spiff.float_becomes_int_defect",
    "Spiff.null_word_document_defect",
    "Spiff.write_example"
   ],
   "note": "strconv.FormatFloat is a parameter (NumbersOk states what is required of it); the layout of collections is not modelled; the defects prove the stated exceptions"
  },
  {
   "property": "C75",
   "status": "proved",
   "theorems": [
    "Spiff.write_request",
    "Spiff.write_result",
    "Spiff.options_iff",
    "Spiff.tags_iff",
    "Spiff.write_binary_roundtrip",
    "Spiff.write_nil_defect",
    "Spiff.write_multi_defect",
    "Spiff.write_no_base64_defect",
    "Spiff.options_order_defect"
   ],
   "note": "YAML marshalling, formatting of floats, path cleaning and the file system are parameters; WriteSpec (Spec/FileFns.lean) is the described request"
  },
  {
   "property": "C76",
   "status": "proved",
   "theorems": [
    "Spiff.exec_bit",
    "Spiff.archive_files",
    "Spiff.archive_result",
    "Spiff.archive_exec_defect",
    "Spiff.archive_home_differs"
   ],
   "note": "packing (tar, gzip) is a parameter; maps have unique keys"
  },
  {
   "property": "C77",
   "status": "proved",
   "theorems": [
    "Spiff.tempfile_data",
    "Spiff.mkdir_iff",
    "Spiff.mkdir_result",
    "Spiff.mkdir_list_defect"
   ],
   "note": "the creation of the file and of its name is C22"
  },
  {
   "property": "C78",
   "status": "proved",
   "theorems": [
    "Spiff.exec_iff",
    "Spiff.pipe_iff",
    "Spiff.output_iff",
    "Spiff.exec_list_defect",
    "Spiff.pipe_two_defect"
   ],
   "note": "the execution is a parameter, its cache is C57; YAML parsing is a parameter (C72, C73)"
  },
  {
   "property": "C79",
   "status": "proved",
   "theorems": [
    "Spiff.lookup_iff",
    "Spiff.lookup_total",
    "Spiff.list_files_iff",
    "Spiff.env_one",
    "Spiff.env_many",
    "Spiff.env_fails",
    "Spiff.env_undetermined",
    "Spiff.env_equals_defect"
   ],
   "note": "the file system and the environment are arbitrary"
  },
  {
   "property": "C80",
   "status": "proved",
   "theorems": [
    "Spiff.read_sound",
    "Spiff.read_complete",
    "Spiff.read_error",
    "Spiff.read_call",
    "Spiff.parse_call",
    "Spiff.marked_template",
    "Spiff.copy_binary",
    "Spiff.read_no_argument_defect",
    "Spiff.read_template_root_defect",
    "Spiff.template_marker_blank_defect",
    "Spiff.template_marker_missing_defect",
    "Spiff.read_empties_differ"
   ],
   "note": "the YAML parser (C72, C73), the processing of a document (C01-C11) and the conversion of bytes to text are parameters; the file content is that of C22/C57's cache"
  },
  {
   "property": "C81",
   "status": "proved",
   "theorems": [
    "Spiff.function_call_binds",
    "Spiff.eval_stable",
    "Spiff.closed_iff",
    "Spiff.call_anywhere",
    "Spiff.call_data_anywhere",
    "Spiff.curry_call",
    "Spiff.auto_curry_call",
    "Spiff.name_order",
    "Spiff.self_reference",
    "Spiff.inner_home",
    "Spiff.fibonacci",
    "Spiff.fibonacci_defined",
    "Spiff.fibonacci_five",
    "Spiff.fib_closed",
    "Spiff.plain_ok",
    "Spiff.plain_int",
    "Spiff.fibDocs_closed",
    "Spiff.caller_parameter_defect",
    "Spiff.curry_recursion_defect"
   ],
   "note": "operators and builtin functions are a parameter that must not distinguish functions by local names they do not use (PrimsOk); documents are lookup functions; defaults are literals (others: default_frozen, C40); list expansion in calls and templates are not modelled here"
  },
  {
   "property": "C82",
   "status": "proved",
   "theorems": [
    "Spiff.merge_field_order",
    "Spiff.merge_guard_order",
    "Spiff.merge_output_order",
    "Spiff.dynaml_merge_field_order",
    "Spiff.guarded_merge",
    "Spiff.eval_order_free",
    "Spiff.builtins_order_free",
    "Spiff.orderLib_free",
    "Spiff.perm_same",
    "Spiff.mergeRun_cascade",
    "Spiff.key_marker_order",
    "Spiff.escape_clash_order"
   ],
   "note": "other builtin functions, __ctx and the resolver of _ are parameters with a hypothesis (OrderFreeParams); the order of the issues listed in an error message is not covered"
  },
  {
   "property": "C83",
   "status": "proved",
   "theorems": [
    "Spiff.encode_total",
    "Spiff.encode_sealed",
    "Spiff.decode_iff",
    "Spiff.decode_panics_iff",
    "Spiff.decrypt_encrypt",
    "Spiff.hexDecode_iff",
    "Spiff.chooseKey_iff",
    "Spiff.encrypt_succeeds_iff",
    "Spiff.function_roundtrip",
    "Spiff.command_roundtrip",
    "Spiff.command_yaml_only",
    "Spiff.hexValue_iff",
    "Spiff.hash_of_text",
    "Spiff.long_passwords_agree",
    "Spiff.given_password_ignored",
    "Spiff.given_password_refused",
    "Spiff.empty_not_decryptable",
    "Spiff.md4_shows_text"
   ],
   "note": "3DES (a block cipher that inverts, CryptOk), HMAC-SHA256 and the hash functions are parameters; secrecy is not a property of this model"
  },
  {
   "property": "C84",
   "status": "proved",
   "theorems": [
    "Spiff.formatInt_iff",
    "Spiff.formatInt_injective",
    "Spiff.string_table",
    "Spiff.string_base_iff",
    "Spiff.integer_of_string",
    "Spiff.integer_text_iff",
    "Spiff.integer_table",
    "Spiff.bool_text_iff",
    "Spiff.bool_table",
    "Spiff.float_table",
    "Spiff.rounding_iff",
    "Spiff.abs_iff",
    "Spiff.math_iff",
    "Spiff.rand_range",
    "Spiff.rand_text_iff",
    "Spiff.auto_iff",
    "Spiff.pathBase_last",
    "Spiff.basename_iff",
    "Spiff.basename_empty",
    "Spiff.dirname_iff",
    "Spiff.string_panics_iff",
    "Spiff.rand_panics_iff",
    "Spiff.integer_bool_defect",
    "Spiff.rand_other_defect"
   ],
   "note": "float operations, url.Parse, path.Clean and regular expressions are parameters; the evaluation of the reference to the jobs is C05/C06"
  },
  {
   "property": "C85",
   "status": "proved",
   "theorems": [
    "Spiff.scalar_text_roundtrip",
    "Spiff.key_text_roundtrip",
    "Spiff.string_text_roundtrip",
    "Spiff.asked_string",
    "Spiff.long_text",
    "Spiff.long_text_read",
    "Spiff.lines_read",
    "Spiff.plain_fold_read"
   ],
   "note": "texts are sequences of characters: bytes which are no valid UTF-8 are not modelled; the layout of collections around the scalars is not part of this property"
  },
  {
   "property": "C86",
   "status": "proved",
   "theorems": [
    "Spiff.print_read",
    "Spiff.stream_text_roundtrip",
    "Spiff.document_text_roundtrip",
    "Spiff.printed_plain",
    "Spiff.encode_events",
    "Spiff.marshal_total",
    "Spiff.marshal_example",
    "Spiff.print_example"
   ],
   "note": "tokens are scanned and parsed one after the other, the code interleaves scanning and parsing; texts are characters, not bytes; strconv.FormatFloat is a parameter (FloatWritten, and never an empty text or one with a line break)"
  },
  {
   "property": "C87",
   "status": "proved",
   "theorems": [
    "Spiff.json_read",
    "Spiff.json_fails_iff",
    "Spiff.json_sorted",
    "Spiff.json_order",
    "Spiff.json_next_line_defect",
    "Spiff.json_delete_defect",
    "Spiff.json_documents_defect",
    "Spiff.json_example",
    "Spiff.json_events_example",
    "Spiff.json_example_writable"
   ],
   "note": "Go's encoding/json (Marshal) is part of the model; the text of a finite float is a parameter (FloatWritten); texts are characters, not bytes"
  },
  {
   "property": "C88",
   "status": "proved",
   "theorems": [
    "Spiff.read_pieces",
    "Spiff.read_utf8",
    "Spiff.read_utf8_marked",
    "Spiff.read_encoded",
    "Spiff.marked_iff",
    "Spiff.utf16_truncated_defect",
    "Spiff.utf16_order_defect",
    "Spiff.pieces_example",
    "Spiff.invalid_example",
    "Spiff.decode_utf16"
   ],
   "note": "one buffer for all input; errors of the read handler are not modelled"
  },
  {
   "property": "C89",
   "status": "proved",
   "theorems": [
    "Spiff.merge_output_fixpoint",
    "Spiff.text_example",
    "Spiff.text_example_ok"
   ],
   "note": "floating point texts (strconv) are a parameter: they have to be read back as written (NumbersOk); a document which is only a string ~, null, Null or NULL is excluded (C86)"
  },
  {
   "property": "C90",
   "status": "proved",
   "theorems": [
    "Spiff.merge_texts",
    "Spiff.merge_text_example",
    "Spiff.merge_text_example_ok"
   ],
   "note": "no options; floating point texts (strconv) are a parameter: they have to be read back as written (NumbersOk)"
  },
  {
   "property": "C91",
   "status": "proved",
   "theorems": [
    "Spiff.cascade_eq",
    "Spiff.cascade_out",
    "Spiff.cascade_fresh",
    "Spiff.cascade_prepare_apply",
    "Spiff.cascade_overwrites",
    "Spiff.cascade_keeps",
    "Spiff.setTag_panics",
    "Spiff.setTag_shared",
    "Spiff.apply_resets",
    "Spiff.apply_forgets",
    "Spiff.library_command",
    "Spiff.cascade_stale_defect",
    "Spiff.cascade_example",
    "Spiff.setTag_example",
    "Spiff.library_example",
    "Spiff.streamEngine_example"
   ],
   "note": "the processing itself (flow.NestedFlow) is a parameter, as for the command (C68); settings are opaque here, see C24, C25, C44; contexts are used by one goroutine"
  },
  {
   "property": "C92",
   "status": "proved",
   "theorems": [
    "Spiff.template_defined",
    "Spiff.template_expression_defined",
    "Spiff.template_kept",
    "Spiff.template_instance",
    "Spiff.template_instance_plain",
    "Spiff.template_scope",
    "Spiff.template_own",
    "Spiff.template_waits",
    "Spiff.template_document",
    "Spiff.template_document_ok",
    "Spiff.template_example",
    "Spiff.template_stub_example"
   ],
   "note": "the statement for bodies with expressions is given by the scope theorems (every name has the meaning of the place of use) and an example; the exact result is stated for bodies of data; `&dynamic` is not modelled"
  },
  {
   "property": "C93",
   "status": "proved",
   "theorems": [
    "Spiff.parse_as_yaml",
    "Spiff.parse_as_json",
    "Spiff.read_docs_text",
    "Spiff.as_text_fails",
    "Spiff.text_fns_example",
    "Spiff.text_fns_example_ok"
   ],
   "note": "texts of floating point numbers are parameters with the property that they are read as the number (as for C74, C87); values the YAML encoder cannot write are taken for errors"
  },
  {
   "property": "C94",
   "status": "proved",
   "theorems": [
    "Spiff.sheet_processed",
    "Spiff.sheet_resolved",
    "Spiff.computes_unique",
    "Spiff.circular_no_value",
    "Spiff.sheetFns_ok",
    "Spiff.sheet_cells",
    "Spiff.sheet_tidy",
    "Spiff.sheet_unstubbed"
   ],
   "note": "no stubs (see C95) and no lists with expressions; the text of an expression is parsed by a parser given as parameter; a document with an expression that fails (neither value nor cycle) is not covered"
  },
  {
   "property": "C95",
   "status": "proved",
   "theorems": [
    "Spiff.sheet_merged",
    "Spiff.stub_cells",
    "Spiff.stub_fit",
    "Spiff.stub_plain",
    "Spiff.stub_cycle"
   ],
   "note": "stub values that are maps or lists (C10, C16 for data) and expressions within lists are not covered"
  },
  {
   "property": "C96",
   "status": "proved",
   "theorems": [
    "Spiff.sheet_texts",
    "Spiff.sum_texts",
    "Spiff.sum_example"
   ],
   "note": "composition of C88 to C95; the parser of expressions is a parameter (C61 to C63 are about the grammar); results must be writable data without texts containing an opening double parenthesis (C89)"
  },
  {
   "property": "C97",
   "status": "proved",
   "theorems": [
    "Spiff.grammarParse_iff",
    "Spiff.written_parses",
    "Spiff.written_computes",
    "Spiff.written_cycle",
    "Spiff.sum_grammar"
   ],
   "note": "expressions are those of Model/Eval.lean written as spiff prints them (Spec/Print.lean `Printable`; texts with other blanks are covered by grammarParse_iff together with C72 to C75); sum_grammar is the complete run of C96 with the grammar as parser"
  },
  {
   "property": "C98",
   "status": "proved",
   "theorems": [
    "Spiff.md5crypt_hash",
    "Spiff.digest_text_iff",
    "Spiff.md5crypt_check_iff",
    "Spiff.md5crypt_result",
    "Spiff.md5crypt_roundtrip",
    "Spiff.md5crypt_args"
   ],
   "note": "the MD5 sum of the Go library is a parameter of which only the length of the result is used"
  },
  {
   "property": "C99",
   "status": "proved",
   "theorems": [
    "Spiff.process_text_iff",
    "Spiff.cascade_texts_iff",
    "Spiff.evaluate_text_iff",
    "Spiff.library_same_text",
    "Spiff.library_same_example"
   ],
   "note": "builds on the models of the library (C91) and of the command; library_same_text assumes that the context of the library has the settings of a run without options; library_same_example is a run with expressions that meets the hypotheses"
  },
  {
   "property": "C100",
   "status": "proved",
   "theorems": [
    "Spiff.wggenkey_iff",
    "Spiff.private_range",
    "Spiff.wgpublickey_iff",
    "Spiff.wgpublickey_key",
    "Spiff.wg_roundtrip",
    "Spiff.keyText_iff"
   ],
   "note": "the random bytes and the multiplication with the base point are parameters (32 bytes each); Go's base64 is modelled in StrFns"
  },
  {
   "property": "C101",
   "status": "proved",
   "theorems": [
    "Spiff.semmatch_iff",
    "Spiff.semvalidate_iff",
    "Spiff.semvalidator_iff",
    "Spiff.semsort_spec",
    "Spiff.semprerelease_set",
    "Spiff.semmetadata_set",
    "Spiff.semrelease_get",
    "Spiff.semrelease_set",
    "Spiff.semnumbers_iff",
    "Spiff.semcompare_iff",
    "Spiff.semcompare_lost"
   ],
   "note": "the package github.com/Masterminds/semver is a parameter; its laws (SemLaws, SortLaw) are met by the library toySem; semcompare_lost shows that the result of semvercmp cannot be used in comparisons"
  },
  {
   "property": "C102",
   "status": "proved",
   "theorems": [
    "Spiff.x509cert_iff",
    "Spiff.x509cert_total",
    "Spiff.x509parsecert_shows",
    "Spiff.x509parsecert_iff",
    "Spiff.x509parsecert_fails",
    "Spiff.shown_usages_accepted",
    "Spiff.hosts_lost"
   ],
   "note": "the packages crypto/x509, pem, net and time are parameters; the function panics for certificates with keys of other types (e.g. Ed25519), hosts are not shown for certificates with addresses only"
  },
  {
   "property": "C103",
   "status": "proved",
   "theorems": [
    "Spiff.x509publickey_iff",
    "Spiff.publickey_same",
    "Spiff.publickey_panics",
    "Spiff.x509genkey_iff",
    "Spiff.genkey_publickey",
    "Spiff.toy_pem_laws",
    "Spiff.toy_keys"
   ],
   "note": "the packages crypto/x509, rsa, ecdsa, pem and ssh are parameters; PemLaws states that blocks and keys are read as written, met by the library toyPem"
  },
  {
   "property": "C104",
   "status": "proved",
   "theorems": [
    "Spiff.match_answers",
    "Spiff.match_succeeds",
    "Spiff.match_nil",
    "Spiff.match_arguments",
    "Spiff.match_more",
    "Spiff.toy_reg_laws",
    "Spiff.toy_match"
   ],
   "note": "the package regexp is a parameter; RegLaws states that its functions look for the same matches, met by the library toyReg"
  },
  {
   "property": "C105",
   "status": "proved",
   "theorems": [
    "Spiff.parseurl_fields",
    "Spiff.parseurl_succeeds",
    "Spiff.parseurl_port",
    "Spiff.toy_url"
   ],
   "note": "net/url is a parameter yielding the parts of a URL"
  },
  {
   "property": "C106",
   "status": "proved",
   "theorems": [
    "Spiff.bcrypt_iff",
    "Spiff.bcrypt_check_iff",
    "Spiff.bcrypt_accepts",
    "Spiff.toy_bcrypt"
   ],
   "note": "the package bcrypt is a parameter; the result for a call is arbitrary, so any salt is covered"
  },
  {
   "property": "C107",
   "status": "proved",
   "theorems": [
    "Spiff.text_conditions",
    "Spiff.match_condition_fails",
    "Spiff.unknown_validator",
    "Spiff.keys_accepted",
    "Spiff.ca_certificate",
    "Spiff.dsa_accepted",
    "Spiff.toy_checks"
   ],
   "note": "the theorems are about the evaluation of conditions of C45 with these validators plugged in; lambdas and comparisons with floats stay parameters"
  },
  {
   "property": "C108",
   "status": "proved",
   "theorems": [
    "Spiff.format_iff",
    "Spiff.format_ends",
    "Spiff.error_message",
    "Spiff.format_fails",
    "Spiff.toy_format"
   ],
   "note": "fmt.Sprintf and the encoder are parameters"
  },
  {
   "property": "C109",
   "status": "proved",
   "theorems": [
    "Spiff.equals_iff",
    "Spiff.equals_equivalent",
    "Spiff.equals_symm",
    "Spiff.equals_nil",
    "Spiff.toy_equals"
   ],
   "note": "the reason returned with the result is not modelled"
  }
 ]
}