c("C01","proved","plain_unchanged plain_succeeds")
c("C02","proved","merge_plain merge_plain_succeeds unstable_names","for documents in the range stated by the property; unstable_names shows why list entries need stable names")
c("C03","proved","stub_lookup_some stub_lookup_none later_stubs_irrelevant")
c("C04","proved","map_fields map_keys default_fills_gap")
c("C05","proved","stub_no_effect scalar_kept default_fills_gap map_fields")
c("C06","proved","merged_kept stub_no_effect scalar_kept preferred_value preferred_scalar_overridden","preferred_scalar_overridden proves the stated exception")
c("C07","proved","result_fixpoint reprocess_fixpoint passes_irrelevant pass_terminates fuel_irrelevant nan_diverges","nan_diverges proves the stated exception")
c("C08","proved","unresolved_exact success_iff flowDoc_success interpolated_syntax_error_unreported")
c("C09","proved","prepareStubs_ok_iff prepareStubs_error_iff prepareStubs_partial_mode cascade_template")
c("C10","proved","output_without_temporary output_no_temporary stub_without_local cleanup_root merge_output_no_temporary merge_output_exact")
c("C11","proved","state_descendants state_document state_document_list nested_state_lost","the property as stated (top level marks decide); nested_state_lost proves that marks below unmarked nodes are lost")
c("C12","proved","discardTemporary_idem discardLocal_idem discard_comm determineState_idem discardTags_idem")
c("C13","proved","escaped_not_evaluated escaped_unescape unescaped_evaluated escape_levels plain_string_untouched unescape_document root_not_unescaped escaped_key_unescape other_key_unchanged escaped_key_levels unescape_map_fields escaped_key_collision")
c("C14","proved","interpolation_complete not_converted_unchanged interpolation_wellformed interpolation_plain interpolation_unescape interpolation_leading_quote")
c("C15","proved","find_iff_reaches reaches_unique find_compose find_panics_iff find_crash_witness")
c("C16","proved","equiv_iff_same_content equiv_refl equiv_symm equiv_trans deepEq_iff_identical nan_not_equivalent")
c("C26","proved","ip_add_nonneg ip_sub_small ip_sub_partial ip_sub_wrong ip4_add ip4_add_overflow ip4_sub_small ip_diff ip4_diff ip4_add_diff ip4_add_diff_wrong ip_inc")
c("C51","proved","ipset_selects ipset_sound range_nodup ipRange_all static_ips_selects")
c("C58","proved","min_ip_num max_ip_num num_ip_v4 num_ip_v6_zero contains_iff_between contains_ip_v4")
c("C27","proved","int_ops_mod int_ops_exact int_div_mod div_zero arith_no_panic number_operands float_ops extraBits_least cidr_division cidr_division_nonpositive cidr_multiplication cidr_multiplication_negative_wrong ip_plus ip_minus_ip cidr_plus")
c("C28","proved","eq_iff eq_ne_result comparable_iff eq_same_content eq_self float_never_equal eq_asymmetric order_spec order_other")
c("C29","proved","toBool_iff truth_tables bitwise short_circuit short_circuit_agrees no_short_circuit_int")
c("C30","proved","uniq_first_occurrences uniq_spec intersect_spec intersect_other intersect_nil_slice compact_spec compact_idem index_list lastindex_list index_string contains_iff_index contains_map","intersect_nil_slice proves the stated exception")
c("C31","proved","sort_spec sort_by_spec sort_idem","Go's sort.SliceStable is modelled by a stable insertion sort; a comparison function is any strict weak order")
c("C32","proved","reverse_spec reverse_involutive","the result; the in place modification of the argument is C59")
c("C33","proved","join_split split_parts split_limit split_by_length split_by_length_invalid join_spec join_panic")
c("C34","proved","substr_spec substr_no_panic slice_spec slice_from slice_to slice_no_panic element_list element_list_string element_map element_no_panic")
c("C35","proved","range_spec range_diverges range_min_empty","range_diverges and range_min_empty prove the stated exceptions")
c("C36","proved","list_to_map_spec list_to_map_default keys_spec keys_order_independent makemap_list_spec makemap_pairs_spec makemap_odd")
c("C37","proved","concat_maps deepmerge_spec funcDeepmerge_keys deepmerge_rightmost deepmerge_unit deepmerge_not_assoc deepmerge_content")
c("C38","proved","base64_lines base64_roundtrip","the RFC 4648 codec of Go's standard library is modelled, too")
c("C54","proved","replace_spec replaced_unique replace_all replace_empty_pattern processReplace_const")
c("C17","proved","compare_empty_iff compare_with_jobs compare_crash_iff compare_same_content compare_self compare_asymmetric compare_self_differs compare_misses diff_same_iff diff_counts","diff_same_iff and diff_counts are about the command diff on files; the three before prove the stated exceptions")
c("C18","proved","sanitize_fails_iff normalize_sanitize json_roundtrip normalize_json normalize_fails_iff sanitize_normalize timestamp_lost","timestamp_lost proves the stated exception; []byte values are not modelled")

c("C19","proved","set_tag_succeeds_iff set_tag_found set_tag_others finished_tag_kept push_keeps tag_spelling doc_named_tag_lost_defect predefined_colon_tag_lost_defect","the last two prove the stated exceptions")
c("C20","proved","reset_stream")
c("C21","proved","document_history stale_document_defect","stale_document_defect proves the stated exception")
c("C60","proved","tag_reference exact_tag_wins tag_root_reference colon_reference_defect","the search for the path in the node of a tag is a parameter (it is modelled for C15)")

c("C22","proved","temp_same_name temp_different_names temp_content temp_removed temp_leak_defect temp_denied","the hash function and the choice of new names are parameters; temp_leak_defect proves the stated exception")
c("C23","proved","read_result uncached_read other_reads","the world (file contents at each time) is arbitrary; URLs are treated like files")
c("C57","proved","exec_cached exec_independent exec_reused exec_uncached exec_confused_defect exec_failure_forgotten_defect","the hash is a parameter (assumed injective for exec_independent); the last two prove the stated exceptions")
c("C48","proved","state_crash_safe state_update_ok state_update_failed state_lost_after_crash_defect state_lost_rename_fails_defect","file operations other than writing are atomic; the last two prove the stated exceptions")
c("C24","proved","os_allowed_iff file_allowed_iff contexts_unchanged context_chain")
c("C25","proved","feature_enabled_iff set_accepts_iff set_rejected unknown_feature_disabled new_features_fresh feature_other_root feature_setting_leaks_defect","feature_setting_leaks_defect proves the stated exception")
c("C44","proved","function_lookup context_functions control_kept register_control_ok register_control_fails failed_registration_effect_defect template_option_ambiguity_defect","the last two prove the stated exceptions")

c("C52","proved","join_all join_assoc join_default cleanup_all")
c("C53","proved","Mask.toFlags_faithful Mask.toFlags_injective Mask.addFlags_algebra Mask.default_inject Mask.overridden_spec","on the 64 bit masks of the Go code; toFlags_faithful and toFlags_injective justify the record used in the other models")
c("C47","proved","values_visible values_order_independent setAt_found setAt_other setAt_none_iff path_of_name path_plain createValues_spec values_order_defect definitions_accepted last_definition_wins value_recognized","values_order_defect proves the stated exception")
c("C45","proved","validators_boolean and_spec or_rejects or_single_defect bang_negates map_order_independent check_validate order_int order_string order_mismatch type_condition empty_condition value_conditions","lambda, regexp, DNS, IP and registered validators are arbitrary elementary conditions; or_single_defect proves the stated exception")
c("C46","proved","sync_evaluation sync_history sync_start sync_bounded sync_revived_defect sync_overflow_defect sync_clock_defect","the clock and the outcomes of the sub expressions are arbitrary in every evaluation; the last three prove the stated exceptions")

c("C42","proved","control_recognition if_spec switch_spec switch_malformed selected_spec type_spec merge_control_spec flowControl_none flowControl_flags flowControl_invalid if_needs_both_branches switch_match_no_lambda","evaluation of lambdas is a parameter; the last three prove the stated exceptions")
c("C43","proved","forLoop_combos mem_combos combos_sorted for_list for_map for_not_done for_constant for_variables for_range for_loop_order for_order_independent for_variable_key for_errors for_empty_range for_constant_nil_key for_map_variable for_list_variable","evaluation of the body template is a parameter; the last two prove the stated exceptions")
c("C49","proved","reference_innermost reference_unknown reference_found_iff outer_scopes_irrelevant local_scope_reference scope_reference ctx_not_hidden absolute_reference doc_reference root_reference hidden_without_fallback","DefaultEnvironment.FindReference/FindFromRoot over arbitrary scope stacks; hidden_without_fallback is a concrete witness that an inner field hides an outer one even if the rest of the path exists only there.")
c("C41","proved","or_first or_second or_later or_is_iff or_assoc validOr_first validOr_second validOr_later validOr_unresolved_defect","compositional evaluator over all expression forms of Model/Eval.lean; associativity up to residual expressions and additional info; the last theorem proves the stated exception")
c("C55","proved","merge_value merge_fails_iff merge_none merge_document_independent merge_node merge_missing","the evaluator is plugged into the flow model (exLang); strings of stubs that are expressions again are excluded in merge_node")
c("C56","proved","early_result_final residual_equivalent delayed_evaluation residual_has_cause partial_undefined_defect expansion_defect","compositional evaluator; outcomes agree unless one of the evaluations crashes (Go panic); residual_has_cause covers expressions without local scopes, slices and qualified expressions; the last two theorems prove the stated exceptions")
c("C40","proved","call_runs_iff call_binds curry_full curry_named variadic_curry_defect auto_curry no_auto_curry lambda_defaults lambda_fails_iff default_frozen call_evaluates_body","Body evaluation is abstract; named arguments for currying are names, not indices (indices shift).")
c("C39","proved","visit_total mapping_order_independent mapping_succeeds_iff mapping_fails_iff mapping_postponed_iff mapping_unsupported map_list_value select_list_value select_map_value map_map_value sum_value summed_unique sum_unsupported mapping_crash mapping_no_crash mapping_operands sum_operands sum_stops","The lambda is an arbitrary function on argument lists (its binding is C40); source names of created nodes are a parameter.")
c("C50","proved","new_entries_inserted merge_adds_no_duplicates list_merge_spliced key_tag index_key_defect colon_key_defect key_tag_order_defect","keys of the form [n] or with a colon excluded; the defects show that this is necessary")

c("C59","proved","append_reads append_preserves append_full_preserves append_operand lists_are_values inPlace_reads inPlace_other inPlace_changes_argument_defect build_reads concat_shared_defect lists_not_values_defect","lists_are_values is an invariant over arbitrary histories; the three _defect theorems show where the code departs from value semantics.")

c("C61","proved","grammar_wellFormed grammar_total parse_complete parse_total","big-step semantics of the generated parser: existence of a result is termination (a left recursive rule has none); memory and time are not modelled")
c("C62","proved","parse_shape parse_precedence parse_crash number_unconvertible buildNumber_int parse_numbers_ok","stack typing of all 107 rules, checked by abstract execution whose soundness is proved; strconv.ParseFloat is a parameter; the texts of tokens are those of ASCII sources")
c("C63","proved","print_parse print_parse_prefer print_roundtrip ungroup_regroup print_merge_replace print_merge_required print_merge_none print_slice print_half_range print_control print_backslash print_sync print_projection print_const_index","Printable (Spec/Print.lean) lists the expressions; parsing is the big-step semantics of the grammar; the theorems print_* behind ungroup_regroup prove the stated exceptions; floats are not covered (strconv)")

c("C64","proved","defined_spec valid_spec require_spec optional_spec catch_spec stub_spec stub_other intrinsics_example","arguments whose evaluation panics are excluded for defined and valid; catch without lambda; the expression left by require/defined/valid is the call itself")
c("C65","proved","reference_spec qualified_spec dynamic_spec dynamic_index dynamic_field dynamic_other selection_example","lookups in the scope of the expression are a parameter (Bind; the scopes are C17/C46), lookups in a value are those of C15; index paths with a nested list as single entry and lists of 2^63 entries excluded")
c("C66","proved","written_read written_meaning partial_output_equivalent left_printable partial_output_read partial_output_differs partial_output_example","for the ordinary expressions of C56 (no //, ~~, list expansion, dynamic references, intrinsic functions, lambdas); the tree of the parser and the evaluated expression are related by toEx; partial_output_differs is the defect of the code with dropped parentheses")
c("C67","proved","inputs_read inputs_accepted merge_output merge_ok_iff selected_fields printed_iff components_iff json_empty_lost_defect feature_off_ignored_defect select_crash_defect missing_bindings_ignored_defect","the scanner and emitter of YAML, the processing of one document (C01-C11) and the evaluation of --evaluate are parameters; the defect theorems prove the stated exceptions")
c("C68","proved","merge_silent convert_silent merge_files merge_state state_reread failed_run_state failed_run_updates_state_defect","state_reread assumes that the YAML library reads back what it writes for this document; failed_run_updates_state_defect proves the stated exception; crash points while the state file is written are covered by C48")
c("C69","proved","process_is_merge convert_ok_iff convert_is_merge process_missing_document_defect process_stdin_twice_defect","the last two prove the stated exceptions")
c("C70","proved","projection_spec projection_plain projection_other projection_path projection_unresolved_defect projection_not_final_defect projection_index_defect projection_example","the chain is any expression evaluated for the entry; paths: entries for which the path leaves the bounds of a list (a crash, C15) are excluded; the defects prove the stated exceptions")
c("C71","proved","dns_conditions dns_long_label_defect","the regular expressions are modelled with their language (Mathlib); matching by Go's regexp package is trusted to be membership")
c("C72","proved","read_documents read_stable read_some_document read_no_document unknown_alias assigned_key text_keys anchor_example anchorExample_tame alias_after_anchor_defect nested_anchor_loop_defect nested_anchor_value_defect quoted_null_document_defect quoted_null_alias_defect alias_across_documents_defect duplicate_key_defect collection_key_defect","the input are the events of the parser; the defects prove the stated exceptions")
c("C73","proved","plain_scalar quoted_scalar plain_total tag_ignored_defect leading_zero_defect norway_defect double_sign_defect","strconv.ParseFloat, the forms of timestamps and base64 are parameters; the defects prove the stated exceptions")
c("C74","proved","write_read plain_text_iff selected_plain write_order write_sorted float_becomes_int_defect null_word_document_defect write_example","strconv.FormatFloat is a parameter (NumbersOk states what is required of it); the layout of collections is not modelled; the defects prove the stated exceptions")
c("C75","proved","write_request write_result options_iff tags_iff write_binary_roundtrip write_nil_defect write_multi_defect write_no_base64_defect options_order_defect","YAML marshalling, formatting of floats, path cleaning and the file system are parameters; WriteSpec (Spec/FileFns.lean) is the described request")
c("C76","proved","exec_bit archive_files archive_result archive_exec_defect archive_home_differs","packing (tar, gzip) is a parameter; maps have unique keys")
c("C77","proved","tempfile_data mkdir_iff mkdir_result mkdir_list_defect","the creation of the file and of its name is C22")
c("C78","proved","exec_iff pipe_iff output_iff exec_list_defect pipe_two_defect","the execution is a parameter, its cache is C57; YAML parsing is a parameter (C72, C73)")
c("C79","proved","lookup_iff lookup_total list_files_iff env_one env_many env_fails env_undetermined env_equals_defect","the file system and the environment are arbitrary")
c("C80","proved","read_sound read_complete read_error read_call parse_call marked_template copy_binary read_no_argument_defect read_template_root_defect template_marker_blank_defect template_marker_missing_defect read_empties_differ","the YAML parser (C72, C73), the processing of a document (C01-C11) and the conversion of bytes to text are parameters; the file content is that of C22/C57's cache")
c("C81","proved","function_call_binds eval_stable closed_iff call_anywhere call_data_anywhere curry_call auto_curry_call name_order self_reference inner_home fibonacci fibonacci_defined fibonacci_five fib_closed plain_ok plain_int fibDocs_closed caller_parameter_defect curry_recursion_defect","operators and builtin functions are a parameter that must not distinguish functions by local names they do not use (PrimsOk); documents are lookup functions; defaults are literals (others: default_frozen, C40); list expansion in calls and templates are not modelled here")
c("C82","proved","merge_field_order merge_guard_order merge_output_order dynaml_merge_field_order guarded_merge eval_order_free builtins_order_free orderLib_free perm_same mergeRun_cascade key_marker_order escape_clash_order","other builtin functions, __ctx and the resolver of _ are parameters with a hypothesis (OrderFreeParams); the order of the issues listed in an error message is not covered")
c("C83","proved","encode_total encode_sealed decode_iff decode_panics_iff decrypt_encrypt hexDecode_iff chooseKey_iff encrypt_succeeds_iff function_roundtrip command_roundtrip command_yaml_only hexValue_iff hash_of_text long_passwords_agree given_password_ignored given_password_refused empty_not_decryptable md4_shows_text","3DES (a block cipher that inverts, CryptOk), HMAC-SHA256 and the hash functions are parameters; secrecy is not a property of this model")
c("C84","proved","formatInt_iff formatInt_injective string_table string_base_iff integer_of_string integer_text_iff integer_table bool_text_iff bool_table float_table rounding_iff abs_iff math_iff rand_range rand_text_iff auto_iff pathBase_last basename_iff basename_empty dirname_iff string_panics_iff rand_panics_iff integer_bool_defect rand_other_defect","float operations, url.Parse, path.Clean and regular expressions are parameters; the evaluation of the reference to the jobs is C05/C06")
c("C85","proved","scalar_text_roundtrip key_text_roundtrip string_text_roundtrip asked_string long_text long_text_read lines_read plain_fold_read","texts are sequences of characters: bytes which are no valid UTF-8 are not modelled; the layout of collections around the scalars is not part of this property")
c("C86","proved","print_read stream_text_roundtrip document_text_roundtrip printed_plain encode_events marshal_total marshal_example print_example","tokens are scanned and parsed one after the other, the code interleaves scanning and parsing; texts are characters, not bytes; strconv.FormatFloat is a parameter (FloatWritten, and never an empty text or one with a line break)")
c("C87","proved","json_read json_fails_iff json_sorted json_order json_next_line_defect json_delete_defect json_documents_defect json_example json_events_example json_example_writable","Go's encoding/json (Marshal) is part of the model; the text of a finite float is a parameter (FloatWritten); texts are characters, not bytes")
c("C88","proved","read_pieces read_utf8 read_utf8_marked read_encoded marked_iff utf16_truncated_defect utf16_order_defect pieces_example invalid_example decode_utf16","one buffer for all input; errors of the read handler are not modelled")
c("C89","proved","merge_output_fixpoint text_example text_example_ok","floating point texts (strconv) are a parameter: they have to be read back as written (NumbersOk); a document which is only a string ~, null, Null or NULL is excluded (C86)")
c("C90","proved","merge_texts merge_text_example merge_text_example_ok","no options; floating point texts (strconv) are a parameter: they have to be read back as written (NumbersOk)")
c("C91","proved","cascade_eq cascade_out cascade_fresh cascade_prepare_apply cascade_overwrites cascade_keeps setTag_panics setTag_shared apply_resets apply_forgets library_command cascade_stale_defect cascade_example setTag_example library_example streamEngine_example","the processing itself (flow.NestedFlow) is a parameter, as for the command (C68); settings are opaque here, see C24, C25, C44; contexts are used by one goroutine")
c("C92","proved","template_defined template_expression_defined template_kept template_instance template_instance_plain template_scope template_own template_waits template_document template_document_ok template_example template_stub_example","the statement for bodies with expressions is given by the scope theorems (every name has the meaning of the place of use) and an example; the exact result is stated for bodies of data; `&dynamic` is not modelled")
c("C93","proved","parse_as_yaml parse_as_json read_docs_text as_text_fails text_fns_example text_fns_example_ok","texts of floating point numbers are parameters with the property that they are read as the number (as for C74, C87); values the YAML encoder cannot write are taken for errors")
c("C94","proved","sheet_processed sheet_resolved computes_unique circular_no_value sheetFns_ok sheet_cells sheet_tidy sheet_unstubbed","no stubs (see C95) and no lists with expressions; the text of an expression is parsed by a parser given as parameter; a document with an expression that fails (neither value nor cycle) is not covered")
c("C95","proved","sheet_merged stub_cells stub_fit stub_plain stub_cycle","stub values that are maps or lists (C10, C16 for data) and expressions within lists are not covered")
c("C96","proved","sheet_texts sum_texts sum_example","composition of C88 to C95; the parser of expressions is a parameter (C61 to C63 are about the grammar); results must be writable data without texts containing an opening double parenthesis (C89)")
c("C97","proved","grammarParse_iff written_parses written_computes written_cycle sum_grammar","expressions are those of Model/Eval.lean written as spiff prints them (Spec/Print.lean `Printable`; texts with other blanks are covered by grammarParse_iff together with C72 to C75); sum_grammar is the complete run of C96 with the grammar as parser")
c("C98","proved","md5crypt_hash digest_text_iff md5crypt_check_iff md5crypt_result md5crypt_roundtrip md5crypt_args","the MD5 sum of the Go library is a parameter of which only the length of the result is used")
c("C99","proved","process_text_iff cascade_texts_iff evaluate_text_iff library_same_text library_same_example","builds on the models of the library (C91) and of the command; library_same_text assumes that the context of the library has the settings of a run without options; library_same_example is a run with expressions that meets the hypotheses")
c("C100","proved","wggenkey_iff private_range wgpublickey_iff wgpublickey_key wg_roundtrip keyText_iff","the random bytes and the multiplication with the base point are parameters (32 bytes each); Go's base64 is modelled in StrFns")
c("C101","proved","semmatch_iff semvalidate_iff semvalidator_iff semsort_spec semprerelease_set semmetadata_set semrelease_get semrelease_set semnumbers_iff semcompare_iff semcompare_lost","the package github.com/Masterminds/semver is a parameter; its laws (SemLaws, SortLaw) are met by the library toySem; semcompare_lost shows that the result of semvercmp cannot be used in comparisons")
c("C102","proved","x509cert_iff x509cert_total x509parsecert_shows x509parsecert_iff x509parsecert_fails shown_usages_accepted hosts_lost","the packages crypto/x509, pem, net and time are parameters; the function panics for certificates with keys of other types (e.g. Ed25519), hosts are not shown for certificates with addresses only")
c("C103","proved","x509publickey_iff publickey_same publickey_panics x509genkey_iff genkey_publickey toy_pem_laws toy_keys","the packages crypto/x509, rsa, ecdsa, pem and ssh are parameters; PemLaws states that blocks and keys are read as written, met by the library toyPem")
c("C104","proved","match_answers match_succeeds match_nil match_arguments match_more toy_reg_laws toy_match","the package regexp is a parameter; RegLaws states that its functions look for the same matches, met by the library toyReg")
c("C105","proved","parseurl_fields parseurl_succeeds parseurl_port toy_url","net/url is a parameter yielding the parts of a URL")
c("C106","proved","bcrypt_iff bcrypt_check_iff bcrypt_accepts toy_bcrypt","the package bcrypt is a parameter; the result for a call is arbitrary, so any salt is covered")
c("C107","proved","text_conditions match_condition_fails unknown_validator keys_accepted ca_certificate dsa_accepted toy_checks","the theorems are about the evaluation of conditions of C45 with these validators plugged in; lambdas and comparisons with floats stay parameters")
c("C108","proved","format_iff format_ends error_message format_fails toy_format","fmt.Sprintf and the encoder are parameters")
c("C109","proved","equals_iff equals_equivalent equals_symm equals_nil toy_equals","the reason returned with the result is not modelled")
