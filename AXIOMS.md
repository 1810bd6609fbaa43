# Axioms of the theorems of the manifest (generated by tools/axioms.py)

## Classical.choice, Quot.sound, propext (654)
Spiff.Mask.overridden_spec Spiff.Mask.toFlags_faithful Spiff.Props.cascade_template Spiff.Props.escape_levels Spiff.Props.escaped_not_evaluated Spiff.Props.escaped_unescape Spiff.Props.merge_output_exact Spiff.Props.merge_output_no_temporary Spiff.Props.output_no_temporary Spiff.Props.output_without_temporary Spiff.Props.plain_string_untouched Spiff.Props.prepareStubs_ok_iff Spiff.Props.root_not_unescaped Spiff.Props.state_descendants Spiff.Props.stub_without_local Spiff.Props.unescape_document Spiff.Props.unescaped_evaluated Spiff.abs_iff Spiff.absolute_reference Spiff.alias_across_documents_defect Spiff.alias_after_anchor_defect Spiff.anchorExample_tame Spiff.anchor_example Spiff.and_spec Spiff.append_operand Spiff.append_preserves Spiff.append_reads Spiff.apply_forgets Spiff.apply_resets Spiff.archive_exec_defect Spiff.archive_files Spiff.archive_home_differs Spiff.archive_result Spiff.as_text_fails Spiff.asked_string Spiff.auto_curry Spiff.auto_iff Spiff.bang_negates Spiff.base64_lines Spiff.base64_roundtrip Spiff.bitwise Spiff.buildNumber_int Spiff.build_reads Spiff.builtins_order_free Spiff.ca_certificate Spiff.call_anywhere Spiff.call_binds Spiff.call_data_anywhere Spiff.call_evaluates_body Spiff.call_runs_iff Spiff.cascade_eq Spiff.cascade_fresh Spiff.cascade_keeps Spiff.cascade_overwrites Spiff.cascade_prepare_apply Spiff.cascade_texts_iff Spiff.catch_spec Spiff.check_validate Spiff.cidr_division Spiff.cidr_multiplication Spiff.cidr_plus Spiff.circular_no_value Spiff.collection_key_defect Spiff.colon_key_defect Spiff.colon_reference_defect Spiff.combos_sorted Spiff.command_roundtrip Spiff.compare_asymmetric Spiff.compare_crash_iff Spiff.compare_empty_iff Spiff.compare_misses Spiff.compare_same_content Spiff.compare_self Spiff.compare_self_differs Spiff.compare_with_jobs Spiff.components_iff Spiff.computes_unique Spiff.concat_maps Spiff.contains_iff_between Spiff.contains_iff_index Spiff.contains_ip_v4 Spiff.contains_map Spiff.context_chain Spiff.contexts_unchanged Spiff.control_kept Spiff.control_recognition Spiff.convert_is_merge Spiff.convert_ok_iff Spiff.convert_silent Spiff.copy_binary Spiff.createValues_spec Spiff.ctx_not_hidden Spiff.curry_call Spiff.curry_full Spiff.curry_named Spiff.decode_iff Spiff.decode_panics_iff Spiff.decode_utf16 Spiff.decrypt_encrypt Spiff.deepEq_iff_identical Spiff.deepmerge_content Spiff.deepmerge_not_assoc Spiff.default_fills_gap Spiff.defined_spec Spiff.definitions_accepted Spiff.delayed_evaluation Spiff.diff_counts Spiff.diff_same_iff Spiff.digest_text_iff Spiff.div_zero Spiff.dns_conditions Spiff.dns_long_label_defect Spiff.doc_named_tag_lost_defect Spiff.doc_reference Spiff.document_history Spiff.document_text_roundtrip Spiff.double_sign_defect Spiff.dsa_accepted Spiff.duplicate_key_defect Spiff.dynamic_field Spiff.dynamic_index Spiff.dynamic_other Spiff.dynamic_spec Spiff.dynaml_merge_field_order Spiff.early_result_final Spiff.element_list Spiff.element_list_string Spiff.element_map Spiff.element_no_panic Spiff.empty_condition Spiff.empty_not_decryptable Spiff.encode_events Spiff.encode_sealed Spiff.encode_total Spiff.encrypt_succeeds_iff Spiff.env_equals_defect Spiff.env_fails Spiff.env_many Spiff.env_one Spiff.env_undetermined Spiff.eq_asymmetric Spiff.eq_iff Spiff.eq_ne_result Spiff.eq_same_content Spiff.eq_self Spiff.equals_equivalent Spiff.equals_iff Spiff.equals_symm Spiff.equiv_iff_same_content Spiff.equiv_refl Spiff.equiv_symm Spiff.equiv_trans Spiff.escape_clash_order Spiff.escaped_key_collision Spiff.escaped_key_levels Spiff.escaped_key_unescape Spiff.eval_order_free Spiff.evaluate_text_iff Spiff.exact_tag_wins Spiff.exec_bit Spiff.exec_cached Spiff.exec_confused_defect Spiff.exec_failure_forgotten_defect Spiff.exec_iff Spiff.exec_independent Spiff.exec_list_defect Spiff.exec_reused Spiff.exec_uncached Spiff.expansion_defect Spiff.extraBits_least Spiff.failed_registration_effect_defect Spiff.failed_run_state Spiff.failed_run_updates_state_defect Spiff.feature_enabled_iff Spiff.feature_off_ignored_defect Spiff.feature_other_root Spiff.feature_setting_leaks_defect Spiff.fibonacci Spiff.fibonacci_five Spiff.find_compose Spiff.find_crash_witness Spiff.find_iff_reaches Spiff.find_panics_iff Spiff.finished_tag_kept Spiff.float_becomes_int_defect Spiff.float_never_equal Spiff.flowControl_flags Spiff.flowControl_invalid Spiff.flowControl_none Spiff.flowDoc_success Spiff.for_constant Spiff.for_constant_nil_key Spiff.for_empty_range Spiff.for_errors Spiff.for_list Spiff.for_list_variable Spiff.for_loop_order Spiff.for_map Spiff.for_map_variable Spiff.for_not_done Spiff.for_order_independent Spiff.for_range Spiff.for_variable_key Spiff.formatInt_iff Spiff.formatInt_injective Spiff.fuel_irrelevant Spiff.funcDeepmerge_keys Spiff.function_call_binds Spiff.function_lookup Spiff.function_roundtrip Spiff.genkey_publickey Spiff.grammarParse_iff Spiff.guarded_merge Spiff.hash_of_text Spiff.hexDecode_iff Spiff.hexValue_iff Spiff.hidden_without_fallback Spiff.if_needs_both_branches Spiff.if_spec Spiff.inPlace_changes_argument_defect Spiff.inPlace_other Spiff.inPlace_reads Spiff.index_key_defect Spiff.index_list Spiff.index_string Spiff.inputs_accepted Spiff.inputs_read Spiff.int_div_mod Spiff.int_ops_mod Spiff.integer_bool_defect Spiff.integer_of_string Spiff.integer_table Spiff.integer_text_iff Spiff.interpolated_syntax_error_unreported Spiff.interpolation_complete Spiff.interpolation_leading_quote Spiff.interpolation_plain Spiff.interpolation_unescape Spiff.interpolation_wellformed Spiff.intersect_nil_slice Spiff.intersect_other Spiff.intersect_spec Spiff.intrinsics_example Spiff.ip4_add Spiff.ip4_add_diff Spiff.ip4_add_diff_wrong Spiff.ip4_diff Spiff.ip4_sub_small Spiff.ipRange_all Spiff.ip_add_nonneg Spiff.ip_diff Spiff.ip_minus_ip Spiff.ip_plus Spiff.ip_sub_partial Spiff.ip_sub_small Spiff.ipset_selects Spiff.ipset_sound Spiff.join_split Spiff.json_delete_defect Spiff.json_documents_defect Spiff.json_empty_lost_defect Spiff.json_events_example Spiff.json_example Spiff.json_example_writable Spiff.json_fails_iff Spiff.json_next_line_defect Spiff.json_order Spiff.json_read Spiff.json_roundtrip Spiff.json_sorted Spiff.keyText_iff Spiff.key_marker_order Spiff.key_tag Spiff.key_tag_order_defect Spiff.key_text_roundtrip Spiff.keys_accepted Spiff.keys_order_independent Spiff.keys_spec Spiff.last_definition_wins Spiff.lastindex_list Spiff.later_stubs_irrelevant Spiff.leading_zero_defect Spiff.left_printable Spiff.library_command Spiff.library_example Spiff.library_same_example Spiff.library_same_text Spiff.lines_read Spiff.list_files_iff Spiff.list_merge_spliced Spiff.list_to_map_spec Spiff.lists_are_values Spiff.local_scope_reference Spiff.long_text Spiff.long_text_read Spiff.lookup_iff Spiff.lookup_total Spiff.makemap_list_spec Spiff.makemap_pairs_spec Spiff.map_fields Spiff.map_keys Spiff.map_list_value Spiff.map_map_value Spiff.map_order_independent Spiff.mapping_crash Spiff.mapping_fails_iff Spiff.mapping_no_crash Spiff.mapping_operands Spiff.mapping_order_independent Spiff.mapping_postponed_iff Spiff.mapping_succeeds_iff Spiff.mapping_unsupported Spiff.marked_iff Spiff.marked_template Spiff.marshal_example Spiff.marshal_total Spiff.match_condition_fails Spiff.max_ip_num Spiff.md5crypt_args Spiff.md5crypt_check_iff Spiff.md5crypt_hash Spiff.md5crypt_result Spiff.md5crypt_roundtrip Spiff.mergeRun_cascade Spiff.merge_control_spec Spiff.merge_document_independent Spiff.merge_fails_iff Spiff.merge_field_order Spiff.merge_files Spiff.merge_guard_order Spiff.merge_missing Spiff.merge_node Spiff.merge_none Spiff.merge_ok_iff Spiff.merge_output Spiff.merge_output_fixpoint Spiff.merge_output_order Spiff.merge_plain Spiff.merge_plain_succeeds Spiff.merge_silent Spiff.merge_state Spiff.merge_text_example Spiff.merge_text_example_ok Spiff.merge_texts Spiff.merge_value Spiff.merged_kept Spiff.min_ip_num Spiff.missing_bindings_ignored_defect Spiff.mkdir_iff Spiff.mkdir_list_defect Spiff.mkdir_result Spiff.nan_diverges Spiff.nested_anchor_loop_defect Spiff.nested_anchor_value_defect Spiff.new_entries_inserted Spiff.new_features_fresh Spiff.no_auto_curry Spiff.normalize_json Spiff.normalize_sanitize Spiff.norway_defect Spiff.not_converted_unchanged Spiff.null_word_document_defect Spiff.num_ip_v4 Spiff.number_unconvertible Spiff.optional_spec Spiff.options_iff Spiff.options_order_defect Spiff.or_assoc Spiff.or_first Spiff.or_is_iff Spiff.or_later Spiff.or_rejects Spiff.or_second Spiff.or_single_defect Spiff.orderLib_free Spiff.order_int Spiff.order_mismatch Spiff.order_other Spiff.order_spec Spiff.order_string Spiff.other_key_unchanged Spiff.other_reads Spiff.outer_scopes_irrelevant Spiff.output_iff Spiff.parse_as_json Spiff.parse_as_yaml Spiff.parse_call Spiff.parse_crash Spiff.parse_numbers_ok Spiff.parse_precedence Spiff.parse_shape Spiff.parse_total Spiff.parseurl_fields Spiff.parseurl_port Spiff.parseurl_succeeds Spiff.partial_output_differs Spiff.partial_output_equivalent Spiff.partial_output_example Spiff.partial_output_read Spiff.partial_undefined_defect Spiff.pass_terminates Spiff.passes_irrelevant Spiff.path_of_name Spiff.path_plain Spiff.pieces_example Spiff.pipe_iff Spiff.pipe_two_defect Spiff.plain_fold_read Spiff.plain_scalar Spiff.plain_succeeds Spiff.plain_total Spiff.plain_unchanged Spiff.predefined_colon_tag_lost_defect Spiff.preferred_scalar_overridden Spiff.preferred_value Spiff.print_backslash Spiff.print_const_index Spiff.print_control Spiff.print_example Spiff.print_half_range Spiff.print_merge_none Spiff.print_merge_replace Spiff.print_merge_required Spiff.print_parse Spiff.print_parse_prefer Spiff.print_projection Spiff.print_read Spiff.print_roundtrip Spiff.print_slice Spiff.print_sync Spiff.printed_iff Spiff.printed_plain Spiff.processReplace_const Spiff.process_is_merge Spiff.process_missing_document_defect Spiff.process_stdin_twice_defect Spiff.process_text_iff Spiff.projection_example Spiff.projection_index_defect Spiff.projection_not_final_defect Spiff.projection_other Spiff.projection_path Spiff.projection_plain Spiff.projection_spec Spiff.projection_unresolved_defect Spiff.publickey_panics Spiff.publickey_same Spiff.push_keeps Spiff.qualified_spec Spiff.quoted_null_alias_defect Spiff.quoted_null_document_defect Spiff.quoted_scalar Spiff.rand_panics_iff Spiff.rand_range Spiff.rand_text_iff Spiff.range_diverges Spiff.range_nodup Spiff.range_spec Spiff.reaches_unique Spiff.read_call Spiff.read_complete Spiff.read_docs_text Spiff.read_documents Spiff.read_empties_differ Spiff.read_encoded Spiff.read_error Spiff.read_no_argument_defect Spiff.read_no_document Spiff.read_pieces Spiff.read_result Spiff.read_some_document Spiff.read_sound Spiff.read_stable Spiff.read_template_root_defect Spiff.read_utf8 Spiff.read_utf8_marked Spiff.reference_found_iff Spiff.reference_innermost Spiff.reference_spec Spiff.reference_unknown Spiff.register_control_fails Spiff.register_control_ok Spiff.replace_all Spiff.replace_empty_pattern Spiff.replace_spec Spiff.reprocess_fixpoint Spiff.require_spec Spiff.reset_stream Spiff.residual_equivalent Spiff.residual_has_cause Spiff.result_fixpoint Spiff.reverse_involutive Spiff.reverse_spec Spiff.root_reference Spiff.sanitize_fails_iff Spiff.sanitize_normalize Spiff.scalar_kept Spiff.scalar_text_roundtrip Spiff.scope_reference Spiff.select_crash_defect Spiff.select_list_value Spiff.select_map_value Spiff.selected_fields Spiff.selected_spec Spiff.selection_example Spiff.semcompare_lost Spiff.semmatch_iff Spiff.semvalidate_iff Spiff.semvalidator_iff Spiff.setTag_panics Spiff.setTag_shared Spiff.set_accepts_iff Spiff.set_rejected Spiff.set_tag_found Spiff.set_tag_others Spiff.set_tag_succeeds_iff Spiff.sheetFns_ok Spiff.sheet_cells Spiff.sheet_merged Spiff.sheet_processed Spiff.sheet_resolved Spiff.sheet_texts Spiff.sheet_tidy Spiff.short_circuit_agrees Spiff.shown_usages_accepted Spiff.slice_no_panic Spiff.slice_spec Spiff.sort_by_spec Spiff.sort_idem Spiff.sort_spec Spiff.split_by_length Spiff.split_by_length_invalid Spiff.split_limit Spiff.split_parts Spiff.stale_document_defect Spiff.state_crash_safe Spiff.state_lost_after_crash_defect Spiff.state_lost_rename_fails_defect Spiff.state_reread Spiff.state_update_failed Spiff.state_update_ok Spiff.stream_text_roundtrip Spiff.string_base_iff Spiff.string_table Spiff.string_text_roundtrip Spiff.stub_cells Spiff.stub_cycle Spiff.stub_fit Spiff.stub_lookup_none Spiff.stub_lookup_some Spiff.stub_no_effect Spiff.stub_other Spiff.stub_plain Spiff.stub_spec Spiff.substr_no_panic Spiff.substr_spec Spiff.success_iff Spiff.sum_example Spiff.sum_grammar Spiff.sum_operands Spiff.sum_stops Spiff.sum_texts Spiff.sum_unsupported Spiff.sum_value Spiff.switch_malformed Spiff.switch_match_no_lambda Spiff.switch_spec Spiff.sync_bounded Spiff.sync_clock_defect Spiff.sync_evaluation Spiff.sync_history Spiff.tag_ignored_defect Spiff.tag_reference Spiff.tag_root_reference Spiff.tag_spelling Spiff.temp_content Spiff.temp_different_names Spiff.temp_leak_defect Spiff.temp_removed Spiff.tempfile_data Spiff.template_defined Spiff.template_document Spiff.template_document_ok Spiff.template_example Spiff.template_expression_defined Spiff.template_instance Spiff.template_instance_plain Spiff.template_kept Spiff.template_marker_blank_defect Spiff.template_marker_missing_defect Spiff.template_option_ambiguity_defect Spiff.template_own Spiff.template_scope Spiff.template_stub_example Spiff.template_waits Spiff.text_conditions Spiff.text_example Spiff.text_example_ok Spiff.text_fns_example Spiff.text_fns_example_ok Spiff.toy_checks Spiff.toy_equals Spiff.toy_keys Spiff.toy_match Spiff.toy_pem_laws Spiff.toy_reg_laws Spiff.toy_url Spiff.type_condition Spiff.type_spec Spiff.uncached_read Spiff.unescape_map_fields Spiff.uniq_first_occurrences Spiff.uniq_spec Spiff.unknown_alias Spiff.unknown_feature_disabled Spiff.unresolved_exact Spiff.unstable_names Spiff.validOr_first Spiff.validOr_later Spiff.validOr_second Spiff.validOr_unresolved_defect Spiff.valid_spec Spiff.validators_boolean Spiff.value_conditions Spiff.value_recognized Spiff.values_order_defect Spiff.values_order_independent Spiff.values_visible Spiff.variadic_curry_defect Spiff.visit_total Spiff.wg_roundtrip Spiff.wggenkey_iff Spiff.wgpublickey_iff Spiff.wgpublickey_key Spiff.write_binary_roundtrip Spiff.write_example Spiff.write_multi_defect Spiff.write_nil_defect Spiff.write_no_base64_defect Spiff.write_order Spiff.write_read Spiff.write_request Spiff.write_result Spiff.write_sorted Spiff.written_computes Spiff.written_cycle Spiff.written_meaning Spiff.written_parses Spiff.written_read Spiff.x509cert_iff Spiff.x509cert_total Spiff.x509genkey_iff Spiff.x509parsecert_shows Spiff.x509publickey_iff

## Quot.sound, propext (85)
Spiff.Mask.addFlags_algebra Spiff.Mask.default_inject Spiff.Mask.toFlags_injective Spiff.Props.determineState_idem Spiff.Props.discardLocal_idem Spiff.Props.discardTemporary_idem Spiff.Props.discard_comm Spiff.Props.prepareStubs_error_iff Spiff.Props.prepareStubs_partial_mode Spiff.append_full_preserves Spiff.auto_curry_call Spiff.basename_iff Spiff.caller_parameter_defect Spiff.cascade_example Spiff.chooseKey_iff Spiff.cidr_multiplication_negative_wrong Spiff.command_yaml_only Spiff.compact_idem Spiff.compact_spec Spiff.comparable_iff Spiff.curry_recursion_defect Spiff.deepmerge_rightmost Spiff.deepmerge_spec Spiff.deepmerge_unit Spiff.default_frozen Spiff.dirname_iff Spiff.error_message Spiff.eval_stable Spiff.file_allowed_iff Spiff.float_ops Spiff.forLoop_combos Spiff.for_variables Spiff.format_ends Spiff.format_fails Spiff.format_iff Spiff.given_password_ignored Spiff.given_password_refused Spiff.grammar_total Spiff.inner_home Spiff.int_ops_exact Spiff.ip_inc Spiff.join_all Spiff.join_spec Spiff.lambda_defaults Spiff.lambda_fails_iff Spiff.long_passwords_agree Spiff.match_answers Spiff.match_arguments Spiff.match_more Spiff.match_nil Spiff.match_succeeds Spiff.math_iff Spiff.md4_shows_text Spiff.mem_combos Spiff.merge_adds_no_duplicates Spiff.name_order Spiff.no_short_circuit_int Spiff.normalize_fails_iff Spiff.num_ip_v6_zero Spiff.number_operands Spiff.os_allowed_iff Spiff.pathBase_last Spiff.perm_same Spiff.plain_text_iff Spiff.private_range Spiff.range_min_empty Spiff.selected_plain Spiff.self_reference Spiff.semcompare_iff Spiff.semmetadata_set Spiff.semnumbers_iff Spiff.semprerelease_set Spiff.semrelease_get Spiff.semrelease_set Spiff.semsort_spec Spiff.setAt_found Spiff.setAt_none_iff Spiff.setAt_other Spiff.short_circuit Spiff.static_ips_selects Spiff.tags_iff Spiff.toBool_iff Spiff.truth_tables Spiff.ungroup_regroup Spiff.x509parsecert_fails

## none (1)
Spiff.sheet_unstubbed

## propext (62)
Spiff.Props.cleanup_root Spiff.Props.discardTags_idem Spiff.Props.nested_state_lost Spiff.Props.state_document Spiff.Props.state_document_list Spiff.arith_no_panic Spiff.assigned_key Spiff.basename_empty Spiff.bcrypt_accepts Spiff.bcrypt_check_iff Spiff.bcrypt_iff Spiff.bool_table Spiff.bool_text_iff Spiff.cascade_out Spiff.cascade_stale_defect Spiff.cidr_division_nonpositive Spiff.cleanup_all Spiff.closed_iff Spiff.concat_shared_defect Spiff.context_functions Spiff.equals_nil Spiff.fibDocs_closed Spiff.fib_closed Spiff.fibonacci_defined Spiff.float_table Spiff.grammar_wellFormed Spiff.hosts_lost Spiff.invalid_example Spiff.ip4_add_overflow Spiff.ip_sub_wrong Spiff.join_assoc Spiff.join_default Spiff.join_panic Spiff.list_to_map_default Spiff.lists_not_values_defect Spiff.makemap_odd Spiff.nan_not_equivalent Spiff.parse_complete Spiff.plain_int Spiff.plain_ok Spiff.rand_other_defect Spiff.replaced_unique Spiff.rounding_iff Spiff.setTag_example Spiff.slice_from Spiff.slice_to Spiff.streamEngine_example Spiff.string_panics_iff Spiff.summed_unique Spiff.sync_overflow_defect Spiff.sync_revived_defect Spiff.sync_start Spiff.temp_denied Spiff.temp_same_name Spiff.text_keys Spiff.timestamp_lost Spiff.toy_bcrypt Spiff.toy_format Spiff.unknown_validator Spiff.utf16_order_defect Spiff.utf16_truncated_defect Spiff.x509parsecert_iff
